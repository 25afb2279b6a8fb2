import Verif.Props.SuperpositionField

/-!
# C35 for the fields: sums of unit fields
-/
namespace Traceon
open Spec Excitation

/-- Fixed voltages and dielectrics only, on the same names, the dielectrics being the same. -/
structure Alike (x y : Excitation ℝ V3) : Prop where
  mesh : y.mesh = x.mesh
  symmetry : y.symmetry = x.symmetry
  names : y.types.keys = x.types.keys
  nodup : x.types.keys.Nodup
  only₁ : OnlyVoltages x
  only₂ : OnlyVoltages y
  kinds : ∀ n, (y.types.get n).map (·.1) = (x.types.get n).map (·.1)
  same : ∀ m v, x.types.get m = some (.dielectric, v) → y.types.get m = some (.dielectric, v)

namespace Alike
variable {x y z : Excitation ℝ V3}

theorem sameKinds (h : Alike x y) : SameKinds x y := ⟨h.mesh, h.symmetry, h.kinds⟩

theorem nodup₂ (h : Alike x y) : y.types.keys.Nodup := by rw [h.names]; exact h.nodup

theorem refl (hn : x.types.keys.Nodup) (hx : OnlyVoltages x) : Alike x x := ⟨rfl, rfl, rfl, hn, hx, hx, fun _ => rfl, fun _ _ h => h⟩

theorem symm (h : Alike x y) : Alike y x := by
  refine ⟨h.mesh.symm, h.symmetry.symm, h.names.symm, h.nodup₂, h.only₂, h.only₁, fun n => (h.kinds n).symm, fun m v hm => ?_⟩
  have := h.kinds m
  rw [hm] at this
  cases hg : x.types.get m with
  | none => rw [hg] at this; cases this
  | some tv =>
    obtain ⟨t, w⟩ := tv
    rw [hg] at this
    simp only [Option.map_some, Option.some.injEq] at this
    subst this
    have h2 := h.same m w hg
    rw [hm] at h2
    cases h2
    rfl

theorem trans (h : Alike x y) (h' : Alike y z) : Alike x z :=
  ⟨h'.mesh.trans h.mesh, h'.symmetry.trans h.symmetry, h'.names.trans h.names, h.nodup, h.only₁, h'.only₂, fun n => (h'.kinds n).trans (h.kinds n), fun m v hm => h'.same m v (h.same m v hm)⟩

/-- On other meshes. -/
theorem withMesh (h : Alike x y) (M : Mesh V3) : Alike { x with mesh := M } { y with mesh := M } :=
  ⟨rfl, h.symmetry, h.names, h.nodup, h.only₁, h.only₂, h.kinds, h.same⟩

/-- Both are fixed voltages or both are the same dielectric. -/
theorem cases (h : Alike x y) {m : String} {t t' : ExcType × ExcVal ℝ V3} (h1 : x.types.get m = some t) (h2 : y.types.get m = some t') :
    (∃ v w, t = (.voltageFixed, .num v) ∧ t' = (.voltageFixed, .num w)) ∨ ∃ v, t = (.dielectric, .num v) ∧ t' = (.dielectric, .num v) := by
  obtain ⟨k1, v, hv⟩ := h.only₁ m t h1
  obtain ⟨k2, w, hw⟩ := h.only₂ m t' h2
  have hk := h.kinds m
  rw [h1, h2] at hk
  obtain ⟨a, b⟩ := t
  obtain ⟨c, d⟩ := t'
  simp only at hv hw k1 k2
  subst hv
  subst hw
  simp only [Option.map_some, Option.some.injEq] at hk
  subst hk
  rcases k1 with rfl | rfl
  · exact Or.inl ⟨v, w, rfl, rfl⟩
  · refine Or.inr ⟨v, rfl, ?_⟩
    have := h.same m _ h1
    rw [h2] at this
    cases this
    rfl

/-- Three of them, with the voltages of the third a combination of the others. -/
theorem combination {a b : ℝ} {x₁ x₂ : Excitation ℝ V3} (h₁ : Alike x₁ x) (h₂ : Alike x₂ x)
    (hc : ∀ n u v w, x₁.types.get n = some (.voltageFixed, .num u) → x₂.types.get n = some (.voltageFixed, .num v) → x.types.get n = some (.voltageFixed, .num w) → w = a * u + b * v) :
    Combination a b x₁ x₂ x := by
  refine ⟨h₁.mesh.symm, h₂.mesh.symm, h₁.symmetry.symm, h₂.symmetry.symm, h₁.names.symm, h₂.names.symm, fun n t₁ t₂ t e1 e2 e3 => ?_⟩
  rcases h₁.cases e1 e3 with ⟨u, w, rfl, rfl⟩ | ⟨u, rfl, rfl⟩ <;> rcases h₂.cases e2 e3 with ⟨v, w', rfl, e⟩ | ⟨v, rfl, e⟩ <;> cases e
  · exact hc n u v w e1 e2 e3
  · exact ⟨rfl, rfl⟩

theorem self (h : Alike x y) : Combination 1 0 y x y :=
  combination (refl h.nodup₂ h.only₂) h fun n u v w e1 _ e3 => by
    rw [e1] at e3; cases e3; ring

/-- The solvers of both. -/
theorem solvers (h : Alike x y) (hv : Valid x.mesh) {s : Statics} {st : SolverState} (e : x.solverInit s = some st) :
    ∃ st', y.solverInit s = some st' ∧ st'.elems = st.elems ∧ st'.types = st.types ∧ st'.coils = st.coils ∧ SameMaterial st st' := by
  obtain ⟨st', e'⟩ := solverInit_kinds hv h.nodup h.only₁ h.sameKinds h.nodup₂ h.only₂ e
  have hvy : Valid y.mesh := by rw [h.mesh]; exact hv
  obtain ⟨st2, e2, hL⟩ := solverInit_lin h.self hvy h.nodup₂ e' e
  rw [e'] at e2
  cases e2
  obtain ⟨idx, I⟩ := solverInit_spec hvy h.nodup₂ e'
  have hl : st'.types.length = st'.size := by rw [I.typesLen, I.size_eq]
  refine ⟨st', e', hL.elems₂.symm, hL.types₂.symm, ?_, (sameMaterial₁ hL hl).2⟩
  have key : ∀ {z : Excitation ℝ V3} {st : SolverState}, z.types.keys.Nodup → OnlyVoltages z → z.solverInit s = some st → st.coils = EffCharges.empty3d := by
    intro z st hn ho hz
    rw [solverInit_eq] at hz
    obtain ⟨vn, -, hz⟩ := Option.bind_eq_some_iff.1 hz
    obtain ⟨tv, -, hz⟩ := Option.bind_eq_some_iff.1 hz
    obtain ⟨el, -, hz⟩ := Option.bind_eq_some_iff.1 hz
    rw [only_coils hn ho, Option.bind_some] at hz
    cases hz
    rfl
  rw [key h.nodup₂ h.only₂ e', key h.nodup h.only₁ e]

/-- A faithful environment of one is a faithful environment of the other. -/
theorem faithful (h : Alike x y) (hv : Valid x.mesh) {env : SolveEnv} (he : FaithfulEnv env x) : FaithfulEnv env y := by
  refine ⟨he.1, fun s st' e' => ?_⟩
  obtain ⟨st, e, h1, h2, -, hm⟩ := h.symm.solvers (by rw [h.mesh]; exact hv) e'
  have hs := he.2 s st e
  have hm' : ∀ i, (st'.types[i]?).join = some .dielectric ∨ (st'.types[i]?).join = some .magnetizable → st.values.getD i 0 = st'.values.getD i 0 := hm
  rw [h1, h2] at hs
  cases hel : st'.elems with
  | tris ts =>
    rw [hel] at hs
    simp only at hs ⊢
    refine ⟨hs.1, ?_⟩
    have : fillOps3d env.routines (ts.getD · ⟨0, 0, 0⟩) (fun i => (st'.types[i]?).join) (st.values.getD · 0) =
        fillOps3d env.routines (ts.getD · ⟨0, 0, 0⟩) (fun i => (st'.types[i]?).join) (st'.values.getD · 0) := by
      funext i j
      exact fillOps3d_values (ty := fun i => (st'.types[i]?).join) (v := (st'.values.getD · 0)) (v' := (st.values.getD · 0)) (hm' i) j
    rw [← this]
    exact hs.2
  | lines ls =>
    rw [hel] at hs
    simp only at hs ⊢
    have : fillOpsRadial (ls.getD · ⟨0, 0, 0, 0⟩) (fun i => (st'.types[i]?).join) (st.values.getD · 0) =
        fillOpsRadial (ls.getD · ⟨0, 0, 0, 0⟩) (fun i => (st'.types[i]?).join) (st'.values.getD · 0) := by
      funext i j
      exact fillOpsRadial_values (ty := fun i => (st'.types[i]?).join) (v := (st'.values.getD · 0)) (v' := (st.values.getD · 0)) (hm' i) j
    rw [← this]
    exact hs

theorem enough (h : Alike x y) {env : SolveEnv} (hE : EnoughLines env x) : EnoughLines env y := by
  intro hs s
  rw [h.mesh]
  simp only [sameKinds_excited h.sameKinds]
  exact hE (h.symmetry ▸ hs) s

theorem isElectrostatic (h : Alike x y) : y.isElectrostatic = x.isElectrostatic :=
  any_kinds h.sameKinds h.nodup₂ h.nodup fun t => t = .voltageFixed || t = .voltageFun

end Alike
end Traceon
