import Verif.Props.SuperpositionField4
import Verif.Spec.CurrentSetting

/-!
# C35 for coils and magnetizable materials
-/
namespace Traceon
open Spec Excitation

/-- Currents and magnetizable materials only, on the same names, the materials being the same. -/
structure AlikeC (x y : Excitation ℝ V3) : Prop where
  mesh : y.mesh = x.mesh
  symmetry : y.symmetry = x.symmetry
  names : y.types.keys = x.types.keys
  nodup : x.types.keys.Nodup
  only₁ : OnlyCurrents x
  only₂ : OnlyCurrents y
  kinds : ∀ n, (y.types.get n).map (·.1) = (x.types.get n).map (·.1)
  same : ∀ m v, x.types.get m = some (.magnetizable, v) → y.types.get m = some (.magnetizable, v)

theorem onlyC_numeric {x : Excitation ℝ V3} (h : OnlyCurrents x) (s : Statics) : Numeric x s := by
  intro n tv h1 _
  obtain ⟨h2, h3⟩ := h n tv h1
  refine ⟨fun e => ?_, fun _ => h3⟩
  rcases h2 with h2 | h2 <;> rw [h2] at e <;> cases e

/-- What the loop over the coils has collected, apart from the currents. -/
def StepSame (r r' : List ℝ × List (List ℝ) × List (List V3)) : Prop := r'.1.length = r.1.length ∧ r'.2 = r.2

theorem currentStep_kinds {x y : Excitation ℝ V3} (hm : y.mesh = x.mesh) {jac : List (List ℝ)} {pos : List (List V3)} {s s' r : List ℝ × List (List ℝ) × List (List V3)} (hs : StepSame s s')
    {n : String} {t t' : ExcType × ExcVal ℝ V3} (hk : t'.1 = t.1) (hnum : ∃ v, t'.2 = .num v) (e : x.currentStep jac pos s (n, t) = some r) :
    ∃ r', y.currentStep jac pos s' (n, t') = some r' ∧ StepSame r r' := by
  obtain ⟨k', v', rfl⟩ : ∃ k' v', t' = (k', .num v') := by obtain ⟨v, h⟩ := hnum; exact ⟨t'.1, v, by rw [← h]⟩
  simp only at hk
  subst hk
  unfold currentStep at e ⊢
  simp only [hm] at e ⊢
  split at e
  · rename_i hc
    rw [if_pos hc]
    cases hg : x.mesh.physTris.get n with
    | none => rw [hg] at e; cases e
    | some idx =>
      rw [hg] at e
      simp only [Option.bind_eq_bind, Option.bind_some] at e ⊢
      split at e
      · rename_i hi
        rw [if_pos hi]
        cases e
        exact ⟨s', rfl, hs⟩
      · rename_i hi
        rw [if_neg hi]
        simp only [Option.pure_def] at e ⊢
        cases hj : gather jac idx with
        | none => rw [hj] at e; cases e
        | some j =>
          rw [hj] at e
          simp only [Option.bind_some] at e ⊢
          cases hp : gather pos idx with
          | none => rw [hp] at e; cases e
          | some p =>
            rw [hp] at e
            simp only [Option.bind_some] at e ⊢
            refine ⟨_, rfl, ?_⟩
            cases hv : t.2 with
            | num v =>
              rw [hv] at e
              simp only [Option.some.injEq] at e
              subst e
              exact ⟨by simp [hs.1], by simp [hs.2]⟩
            | _ => rw [hv] at e; cases e
  · rename_i hc
    rw [if_neg hc]
    cases e
    exact ⟨s', rfl, hs⟩

theorem currentFold_kinds {x y : Excitation ℝ V3} (hm : y.mesh = x.mesh) {jac : List (List ℝ)} {pos : List (List V3)} :
    ∀ (l l' : Dict (ExcType × ExcVal ℝ V3)) {s s' r : List ℝ × List (List ℝ) × List (List V3)}, StepSame s s' → l.keys.Nodup → l'.keys = l.keys →
      (∀ n t t', l.get n = some t → l'.get n = some t' → t'.1 = t.1 ∧ ∃ v, t'.2 = .num v) → l.foldlM (x.currentStep jac pos) s = some r →
      ∃ r', l'.foldlM (y.currentStep jac pos) s' = some r' ∧ StepSame r r'
  | [], [], s, s', r, hs, _, _, _, e => by cases e; exact ⟨s', rfl, hs⟩
  | [], _ :: _, _, _, _, _, _, hk, _, _ => by simp [Dict.keys] at hk
  | _ :: _, [], _, _, _, _, _, hk, _, _ => by simp [Dict.keys] at hk
  | (n, t) :: l, (n', t') :: l', s, s', r, hs, hnd, hk, hv, e => by
    simp only [Dict.keys, List.map_cons, List.cons.injEq] at hk
    obtain ⟨rfl, hk⟩ := hk
    simp only [Dict.keys, List.map_cons, List.nodup_cons] at hnd
    rw [List.foldlM_cons] at e
    cases q : x.currentStep jac pos s (n', t) with
    | none => rw [q] at e; cases e
    | some m =>
      rw [q] at e
      obtain ⟨h1, h2⟩ := hv n' t t' (by simp [Dict.get_cons]) (by simp [Dict.get_cons])
      obtain ⟨m', q', hm'⟩ := currentStep_kinds hm hs h1 h2 q
      obtain ⟨r', g1, g2⟩ := currentFold_kinds hm l l' hm' hnd.2 hk (fun k u u' w w' => by
        have hne : n' ≠ k := by
          rintro rfl
          exact hnd.1 (List.mem_map.2 ⟨_, Dict.mem_of_get w, rfl⟩)
        exact hv k u u' (by simp [Dict.get_cons, hne, w]) (by simp [Dict.get_cons, hne, w'])) e
      refine ⟨r', ?_, g2⟩
      rw [List.foldlM_cons, q']
      exact g1

namespace AlikeC
variable {x y z : Excitation ℝ V3}

theorem sameKinds (h : AlikeC x y) : SameKinds x y := ⟨h.mesh, h.symmetry, h.kinds⟩

theorem nodup₂ (h : AlikeC x y) : y.types.keys.Nodup := by rw [h.names]; exact h.nodup

theorem refl (hn : x.types.keys.Nodup) (hx : OnlyCurrents x) : AlikeC x x := ⟨rfl, rfl, rfl, hn, hx, hx, fun _ => rfl, fun _ _ h => h⟩

theorem symm (h : AlikeC x y) : AlikeC y x := by
  refine ⟨h.mesh.symm, h.symmetry.symm, h.names.symm, h.nodup₂, h.only₂, h.only₁, fun n => (h.kinds n).symm, fun m v hm => ?_⟩
  have := h.kinds m
  rw [hm] at this
  cases hg : x.types.get m with
  | none => rw [hg] at this; cases this
  | some tv =>
    obtain ⟨t, w⟩ := tv
    rw [hg] at this
    simp only [Option.map_some, Option.some.injEq] at this
    subst this
    have h2 := h.same m w hg
    rw [hm] at h2
    cases h2
    rfl

theorem trans (h : AlikeC x y) (h' : AlikeC y z) : AlikeC x z :=
  ⟨h'.mesh.trans h.mesh, h'.symmetry.trans h.symmetry, h'.names.trans h.names, h.nodup, h.only₁, h'.only₂, fun n => (h'.kinds n).trans (h.kinds n), fun m v hm => h'.same m v (h.same m v hm)⟩

theorem withMesh (h : AlikeC x y) (M : Mesh V3) : AlikeC { x with mesh := M } { y with mesh := M } :=
  ⟨rfl, h.symmetry, h.names, h.nodup, h.only₁, h.only₂, h.kinds, h.same⟩

/-- Both are currents or both are the same material. -/
theorem cases (h : AlikeC x y) {m : String} {t t' : ExcType × ExcVal ℝ V3} (h1 : x.types.get m = some t) (h2 : y.types.get m = some t') :
    (∃ v w, t = (.current, .num v) ∧ t' = (.current, .num w)) ∨ ∃ v, t = (.magnetizable, .num v) ∧ t' = (.magnetizable, .num v) := by
  obtain ⟨k1, v, hv⟩ := h.only₁ m t h1
  obtain ⟨k2, w, hw⟩ := h.only₂ m t' h2
  have hk := h.kinds m
  rw [h1, h2] at hk
  obtain ⟨a, b⟩ := t
  obtain ⟨c, d⟩ := t'
  simp only at hv hw k1 k2
  subst hv
  subst hw
  simp only [Option.map_some, Option.some.injEq] at hk
  subst hk
  rcases k1 with rfl | rfl
  · exact Or.inl ⟨v, w, rfl, rfl⟩
  · refine Or.inr ⟨v, rfl, ?_⟩
    have := h.same m _ h1
    rw [h2] at this
    cases this
    rfl

theorem combination {a b : ℝ} {x₁ x₂ : Excitation ℝ V3} (h₁ : AlikeC x₁ x) (h₂ : AlikeC x₂ x)
    (hc : ∀ n u v w, x₁.types.get n = some (.current, .num u) → x₂.types.get n = some (.current, .num v) → x.types.get n = some (.current, .num w) → w = a * u + b * v) :
    Combination a b x₁ x₂ x := by
  refine ⟨h₁.mesh.symm, h₂.mesh.symm, h₁.symmetry.symm, h₂.symmetry.symm, h₁.names.symm, h₂.names.symm, fun n t₁ t₂ t e1 e2 e3 => ?_⟩
  rcases h₁.cases e1 e3 with ⟨u, w, rfl, rfl⟩ | ⟨u, rfl, rfl⟩ <;> rcases h₂.cases e2 e3 with ⟨v, w', rfl, e⟩ | ⟨v, rfl, e⟩ <;> cases e
  · exact hc n u v w e1 e2 e3
  · exact ⟨rfl, rfl⟩

theorem self (h : AlikeC x y) : Combination 1 0 y x y :=
  combination (refl h.nodup₂ h.only₂) h fun n u v w e1 _ e3 => by
    rw [e1] at e3; cases e3; ring

theorem coils (h : AlikeC x y) {s : Statics} {c : EffCharges V3} (e : coilsIn x s = some c) : ∃ c', coilsIn y s = some c' := by
  cases s with
  | electrostatic => exact ⟨_, rfl⟩
  | magnetostatic =>
    have e : x.currentCharges = some c := e
    show ∃ c', y.currentCharges = some c'
    have k : y.hasCurrent = x.hasCurrent := any_kinds h.sameKinds h.nodup₂ h.nodup fun t => t = .current
    unfold currentCharges at e ⊢
    rw [h.mesh, k]
    split at e
    · rename_i hc
      rw [if_pos hc]; exact ⟨_, rfl⟩
    · rename_i hc
      rw [if_neg hc]
      cases hv : x.mesh.triangles.mapM (triVerts x.mesh.points) with
      | none => rw [hv] at e; cases e
      | some verts =>
        rw [hv] at e
        simp only [Option.bind_eq_bind, Option.bind_some] at e ⊢
        cases q : x.types.foldlM (x.currentStep (verts.map jacRow) (verts.map posRow)) ([], [], []) with
        | none => rw [q] at e; cases e
        | some r =>
          obtain ⟨r', g1, g2, g3⟩ := currentFold_kinds h.mesh x.types y.types (s := ([], [], [])) (s' := ([], [], [])) ⟨rfl, rfl⟩ h.nodup h.names (fun n t t' e1 e2 => by
            rcases h.cases e1 e2 with ⟨v, w, rfl, rfl⟩ | ⟨v, rfl, rfl⟩
            · exact ⟨rfl, w, rfl⟩
            · exact ⟨rfl, v, rfl⟩) q
          rw [q] at e
          rw [g1]
          simp only [Option.bind_some] at e ⊢
          obtain ⟨c₁, j₁, p₁⟩ := r
          obtain ⟨c₂, j₂, p₂⟩ := r'
          simp only [Prod.mk.injEq] at g2 g3 e ⊢
          obtain ⟨rfl, rfl⟩ := g3
          by_cases h0 : c₂ = []
          · rw [if_pos h0]; exact ⟨_, rfl⟩
          · have z : c₁ ≠ [] := by
              rintro rfl
              exact h0 (List.length_eq_zero_iff.1 (by simpa using g2))
            rw [if_neg z] at e
            rw [if_neg h0]
            exact new_some g2 e

theorem solvers (h : AlikeC x y) (hv : Valid x.mesh) {s : Statics} {st : SolverState} (e : x.solverInit s = some st) :
    ∃ st', y.solverInit s = some st' ∧ st'.elems = st.elems ∧ st'.types = st.types ∧ SameMaterial st st' := by
  have hvy : Valid y.mesh := by rw [h.mesh]; exact hv
  have ⟨st', e'⟩ : ∃ st', y.solverInit s = some st' := by
    obtain ⟨idx, hI⟩ := solverInit_spec hv h.nodup e
    obtain ⟨verts, names, idx1, ha⟩ := active_spec hv h.nodup hI.proper
    obtain ⟨verts', names', idx', hb⟩ := active_spec hvy h.nodup₂ (sameKinds_proper h.sameKinds hI.proper)
    obtain ⟨rfl, rfl, rfl⟩ := sameKinds_active h.sameKinds ha hb
    obtain ⟨ts', vs', b1, b2, b3, b4⟩ := solver_arrays hvy (onlyC_numeric h.only₂ _) hb (fun k => elementCentre y.mesh (verts'.getD k []))
    rw [solverInit_eq, ha.eq, Option.bind_some] at e
    obtain ⟨tv, -, e⟩ := Option.bind_eq_some_iff.1 e
    obtain ⟨el, h1, e⟩ := Option.bind_eq_some_iff.1 e
    obtain ⟨c, h2, -⟩ := Option.bind_eq_some_iff.1 e
    obtain ⟨c', h3⟩ := h.coils h2
    rw [solverInit_eq, hb.eq, Option.bind_some, b1, Option.bind_some]
    simp only at h1 ⊢
    rw [h.mesh, h1, h3]
    exact ⟨_, rfl⟩
  obtain ⟨st2, e2, hL⟩ := solverInit_lin h.self hvy h.nodup₂ e' e
  rw [e'] at e2
  cases e2
  obtain ⟨idx, I⟩ := solverInit_spec hvy h.nodup₂ e'
  have hl : st'.types.length = st'.size := by rw [I.typesLen, I.size_eq]
  exact ⟨st', e', hL.elems₂.symm, hL.types₂.symm, (sameMaterial₁ hL hl).2⟩

theorem faithful (h : AlikeC x y) (hv : Valid x.mesh) {env : SolveEnv} (he : FaithfulEnv env x) : FaithfulEnv env y := by
  refine ⟨he.1, fun s st' e' => ?_⟩
  obtain ⟨st, e, h1, h2, hm⟩ := h.symm.solvers (by rw [h.mesh]; exact hv) e'
  have hs := he.2 s st e
  have hm' : ∀ i, (st'.types[i]?).join = some .dielectric ∨ (st'.types[i]?).join = some .magnetizable → st.values.getD i 0 = st'.values.getD i 0 := hm
  rw [h1, h2] at hs
  cases hel : st'.elems with
  | tris ts =>
    rw [hel] at hs
    simp only at hs ⊢
    refine ⟨hs.1, ?_⟩
    have : fillOps3d env.routines (ts.getD · ⟨0, 0, 0⟩) (fun i => (st'.types[i]?).join) (st.values.getD · 0) =
        fillOps3d env.routines (ts.getD · ⟨0, 0, 0⟩) (fun i => (st'.types[i]?).join) (st'.values.getD · 0) := by
      funext i j
      exact fillOps3d_values (ty := fun i => (st'.types[i]?).join) (v := (st'.values.getD · 0)) (v' := (st.values.getD · 0)) (hm' i) j
    rw [← this]
    exact hs.2
  | lines ls =>
    rw [hel] at hs
    simp only at hs ⊢
    have : fillOpsRadial (ls.getD · ⟨0, 0, 0, 0⟩) (fun i => (st'.types[i]?).join) (st.values.getD · 0) =
        fillOpsRadial (ls.getD · ⟨0, 0, 0, 0⟩) (fun i => (st'.types[i]?).join) (st'.values.getD · 0) := by
      funext i j
      exact fillOpsRadial_values (ty := fun i => (st'.types[i]?).join) (v := (st'.values.getD · 0)) (v' := (st.values.getD · 0)) (hm' i) j
    rw [← this]
    exact hs

theorem enough (h : AlikeC x y) {env : SolveEnv} (hE : EnoughLines env x) : EnoughLines env y := by
  intro hs s
  rw [h.mesh]
  simp only [sameKinds_excited h.sameKinds]
  exact hE (h.symmetry ▸ hs) s

end AlikeC
end Traceon
