import Verif.Props.Linear3
import Verif.Props.Rigid5

/-!
# C84: `solve_direct` is linear in the excitation
-/
namespace Traceon
open Spec V3 Excitation

theorem FieldLin.fields {a b : ℝ} {f₁ f₂ f : PyObj} (h : FieldLin a b f₁ f₂ f) (p : V3) :
    f.electrostaticPotential p = Combined a b (f₁.electrostaticPotential p) (f₂.electrostaticPotential p) ∧
    f.electrostaticField p = CombinedV a b (f₁.electrostaticField p) (f₂.electrostaticField p) ∧
    f.magnetostaticPotential p = Combined a b (f₁.magnetostaticPotential p) (f₂.magnetostaticPotential p) ∧
    f.magnetostaticField p = CombinedV a b (f₁.magnetostaticField p) (f₂.magnetostaticField p) ∧
    f.potentialAtPoint p = Combined a b (f₁.potentialAtPoint p) (f₂.potentialAtPoint p) ∧
    f.fieldAtPoint p = CombinedV a b (f₁.fieldAtPoint p) (f₂.fieldAtPoint p) := by
  have key : f.electrostaticPotential p = Combined a b (f₁.electrostaticPotential p) (f₂.electrostaticPotential p) ∧
      f.electrostaticField p = CombinedV a b (f₁.electrostaticField p) (f₂.electrostaticField p) ∧
      f.magnetostaticPotential p = Combined a b (f₁.magnetostaticPotential p) (f₂.magnetostaticPotential p) ∧
      f.magnetostaticField p = CombinedV a b (f₁.magnetostaticField p) (f₂.magnetostaticField p) ∧
      (f₁.isElectrostatic ↔ f.isElectrostatic) ∧ (f₂.isElectrostatic ↔ f.isElectrostatic) ∧ (f₁.isMagnetostatic ↔ f.isMagnetostatic) ∧ (f₂.isMagnetostatic ↔ f.isMagnetostatic) := by
    cases f₁ <;> cases f₂ <;> cases f <;> try exact h.elim
    · obtain ⟨h1, h2, h3⟩ := h
      simp only [PyObj.electrostaticPotential, PyObj.electrostaticField, PyObj.magnetostaticPotential, PyObj.magnetostaticField, Combined, CombinedV, Option.bind_some, Option.map_some,
        h1.potentialRadial, h1.fieldRadial, h2.potentialRadial, h2.fieldRadial, h3.currentField, PyObj.isElectrostatic, PyObj.isMagnetostatic, h1.len_eq₁, h1.len_eq₂, h2.len_eq₁, h2.len_eq₂,
        h3.len_eq₁, h3.len_eq₂, true_and, and_true, and_self, Option.some.injEq]
      ext <;> simp <;> ring
    · obtain ⟨h1, h2⟩ := h
      simp only [PyObj.electrostaticPotential, PyObj.electrostaticField, PyObj.magnetostaticPotential, PyObj.magnetostaticField, Combined, CombinedV, Option.bind_some, Option.map_some,
        h1.potential3d, h1.field3d, h2.potential3d, h2.field3d, PyObj.isElectrostatic, PyObj.isMagnetostatic, h1.len_eq₁, h1.len_eq₂, h2.len_eq₁, h2.len_eq₂, and_self]
  obtain ⟨k1, k2, k3, k4, k5, k6, k7, k8⟩ := key
  refine ⟨k1, k2, k3, k4, ?_, ?_⟩
  · unfold PyObj.potentialAtPoint
    by_cases c1 : f.isElectrostatic <;> by_cases c2 : f.isMagnetostatic <;> simp [k5, k6, k7, k8, c1, c2, k1, k3] <;> rfl
  · unfold PyObj.fieldAtPoint
    by_cases c1 : f.isElectrostatic <;> by_cases c2 : f.isMagnetostatic <;> simp [k5, k6, k7, k8, c1, c2, k2, k4] <;> rfl

/-- What the solvers return. -/
theorem solveStatics_shape {x : Excitation ℝ V3} {env : SolveEnv} {s : Statics} {f : PyObj} (hf : x.solveStatics env s = some f) :
    (∃ (ts : List Tri3) (q : List ℝ), f = toField3d s ⟨12, q, ts.map jacRow, ts.map posRow⟩) ∨
      ∃ E c, f = toFieldRadial s c E ∧ E.Wf ∧ E.nquad = 16 ∧ coilsIn x s = some c := by
  unfold solveStatics at hf
  cases hst : x.solverInit s with
  | none => rw [hst] at hf; cases hf
  | some st =>
    rw [hst] at hf
    simp only [Option.bind_eq_bind, Option.bind_some] at hf
    unfold SolverState.solve at hf
    cases hq : st.charges env s with
    | none => rw [hq] at hf; cases hf
    | some q =>
      rw [hq] at hf
      simp only [Option.bind_eq_bind, Option.bind_some] at hf
      cases hel : st.elems with
      | lines ls =>
        rw [hel] at hf
        simp only [Option.map_eq_some_iff] at hf
        obtain ⟨E, h1, rfl⟩ := hf
        obtain ⟨rfl, h2⟩ := EffCharges.new_eq h1
        refine Or.inr ⟨_, _, rfl, h2, rfl, ?_⟩
        have := solverInit_eq x s
        rw [hst] at this
        have this := this.symm
        rw [Option.bind_eq_some_iff] at this
        obtain ⟨_, _, this⟩ := this
        rw [Option.bind_eq_some_iff] at this
        obtain ⟨_, _, this⟩ := this
        rw [Option.bind_eq_some_iff] at this
        obtain ⟨_, _, this⟩ := this
        rw [Option.bind_eq_some_iff] at this
        obtain ⟨c, h3, this⟩ := this
        rw [h3, ← Option.some.inj this]
      | tris ts =>
        rw [hel] at hf
        simp only [Option.map_eq_some_iff] at hf
        obtain ⟨E, h1, rfl⟩ := hf
        obtain ⟨rfl, h2⟩ := EffCharges.new_eq h1
        exact Or.inl ⟨ts, q, rfl⟩

theorem add_radial {x : Excitation ℝ V3} {E M : EffCharges (ℝ × ℝ)} {c c' : EffCharges V3} (h1 : E.Wf) (h2 : E.nquad = 16) (h1' : M.Wf) (h2' : M.nquad = 16)
    (h3' : coilsIn x .magnetostatic = some c') : PyObj.add (toFieldRadial .electrostatic c E) (toFieldRadial .magnetostatic c' M) = some (.radial ⟨E, M, c', none⟩) := by
  obtain ⟨w3, n3⟩ := currentCharges_wf (x := x) (c := c') h3'
  simp [toFieldRadial, PyObj.add, PyObj.binary, PyObj.method, PyObj.bemBinary, PyObj.attr, PyObj.effMethod, EffCharges.empty2d, EffCharges.empty3d,
    EffCharges.add_nil_right h1 h2, EffCharges.add_nil_left h1' h2', EffCharges.add_nil_left w3 n3, PyObj.construct3]

/-- The sum of an electrostatic and a magnetostatic field in radial symmetry; in three dimensions it raises. -/
theorem solveStatics_add {x : Excitation ℝ V3} {env : SolveEnv} {e m f : PyObj} (he : x.solveStatics env .electrostatic = some e) (hm : x.solveStatics env .magnetostatic = some m)
    (hf : e.add m = some f) : ∃ E M c, e = .radial ⟨E, .empty2d, .empty3d, none⟩ ∧ m = .radial ⟨.empty2d, M, c, none⟩ ∧ f = .radial ⟨E, M, c, none⟩ := by
  rcases solveStatics_shape he with ⟨ts, q, rfl⟩ | ⟨E, c, rfl, h1, h2, h3⟩
  · exfalso
    rcases solveStatics_shape hm with ⟨ts', q', rfl⟩ | ⟨M, c', rfl, h1', h2', h3'⟩
    · have hnone := (C39_refuted ⟨.empty2d, .empty2d, .empty3d, none⟩ ⟨.empty2d, .empty2d, .empty3d, none⟩ ⟨⟨12, q, ts.map jacRow, ts.map posRow⟩, .empty3d, none⟩
        ⟨.empty3d, ⟨12, q', ts'.map jacRow, ts'.map posRow⟩, none⟩ ⟨true, [], [], []⟩ ⟨true, [], [], []⟩ rfl rfl 0).2.1.1
      simp only [toField3d, hnone] at hf
      cases hf
    · simp [toField3d, toFieldRadial, PyObj.add, PyObj.binary, PyObj.method, PyObj.bemBinary, PyObj.attr, PyObj.effMethod, PyObj.construct3] at hf
  · rcases solveStatics_shape hm with ⟨ts', q', rfl⟩ | ⟨M, c', rfl, h1', h2', h3'⟩
    · exfalso
      simp [toField3d, toFieldRadial, PyObj.add, PyObj.binary, PyObj.method, PyObj.bemBinary, PyObj.attr, PyObj.effMethod, PyObj.construct3] at hf
    · refine ⟨E, M, c', rfl, rfl, ?_⟩
      rw [add_radial h1 h2 h1' h2' h3'] at hf
      exact (Option.some.inj hf).symm

theorem solverMesh_valid {G : Geo V3} (hG : G.Lawful) {m M : Mesh V3} (hv : Valid m) (h : m.solverMesh G realThirds = some M) : Valid M := by
  unfold Mesh.solverMesh at h
  split at h
  · rename_i hc
    have hcols : m.lineCols = 2 := by
      rcases hv.cols with h | h
      · exact h
      · simp [Mesh.isHigherOrder, h] at hc
    obtain ⟨M', k1, k2, _⟩ := C12_upgrade hG realThirds m hv hcols
    rw [k1] at h
    cases h
    exact k2
  · cases h; exact hv

section
variable {G : Geo V3} {a b : ℝ} {x₁ x₂ x x₁' x₂' x' : Excitation ℝ V3} {env₁ env₂ env : SolveEnv} {f₁ f₂ : PyObj}

theorem solveField_lin (hG : G.Lawful) (h : Combination a b x₁ x₂ x) (hv : Valid x.mesh) (hn : x.types.keys.Nodup)
    (u₁ : x₁.upgraded G = some x₁') (u₂ : x₂.upgraded G = some x₂') (u : x.upgraded G = some x')
    (he₁ : FaithfulEnv env₁ x₁') (he₂ : FaithfulEnv env₂ x₂') (he : FaithfulEnv env x') (hE₁ : EnoughLines env₁ x₁') (hE₂ : EnoughLines env₂ x₂') (hE : EnoughLines env x')
    (hf₁ : x₁.solveField G env₁ = some f₁) (hf₂ : x₂.solveField G env₂ = some f₂) : ∃ f, x.solveField G env = some f ∧ FieldLin a b f₁ f₂ f := by
  have hn₁ : x₁.types.keys.Nodup := by rw [h.names₁]; exact hn
  have hn₂ : x₂.types.keys.Nodup := by rw [h.names₂]; exact hn
  unfold solveField at hf₁ hf₂ ⊢
  rw [u₁] at hf₁
  rw [u₂] at hf₂
  rw [u]
  simp only [Option.bind_eq_bind, Option.bind_some] at hf₁ hf₂ ⊢
  unfold upgraded at u₁ u₂ u
  rw [h.mesh₁] at u₁
  rw [h.mesh₂] at u₂
  obtain ⟨M, hM, rfl⟩ := Option.map_eq_some_iff.1 u
  rw [hM, Option.map_some, Option.some.injEq] at u₁ u₂
  subst u₁
  subst u₂
  have h' : Combination a b { x₁ with mesh := M } { x₂ with mesh := M } { x with mesh := M } := ⟨rfl, rfl, h.symmetry₁, h.symmetry₂, h.names₁, h.names₂, h.values⟩
  have hv' : Valid M := solverMesh_valid hG hv hM
  have key := fun {s : Statics} {f₁ f₂ : PyObj} => solveStatics_lin (s := s) (f₁ := f₁) (f₂ := f₂) h' hv' hn he₁ he₂ he hE₁ hE₂ hE
  have el₁ : ({ x₁ with mesh := M } : Excitation ℝ V3).isElectrostatic = ({ x with mesh := M } : Excitation ℝ V3).isElectrostatic :=
    (any_kinds h.sameKinds₁ hn hn₁ fun t => t = .voltageFixed || t = .voltageFun).symm
  have el₂ : ({ x₂ with mesh := M } : Excitation ℝ V3).isElectrostatic = ({ x with mesh := M } : Excitation ℝ V3).isElectrostatic :=
    (any_kinds h.sameKinds₂ hn hn₂ fun t => t = .voltageFixed || t = .voltageFun).symm
  have ma₁ : ({ x₁ with mesh := M } : Excitation ℝ V3).isMagnetostatic = ({ x with mesh := M } : Excitation ℝ V3).isMagnetostatic :=
    (any_kinds h.sameKinds₁ hn hn₁ fun t => t = .magnetostaticPot || t = .current).symm
  have ma₂ : ({ x₂ with mesh := M } : Excitation ℝ V3).isMagnetostatic = ({ x with mesh := M } : Excitation ℝ V3).isMagnetostatic :=
    (any_kinds h.sameKinds₂ hn hn₂ fun t => t = .magnetostaticPot || t = .current).symm
  rw [el₁, ma₁] at hf₁
  rw [el₂, ma₂] at hf₂
  cases h1 : ({ x with mesh := M } : Excitation ℝ V3).isElectrostatic <;> cases h2 : ({ x with mesh := M } : Excitation ℝ V3).isMagnetostatic <;>
    rw [h1, h2] at hf₁ hf₂ <;> simp only [if_true, if_false, Bool.false_eq_true] at hf₁ hf₂ ⊢
  · cases hf₁
  · exact key hf₁ hf₂
  · exact key hf₁ hf₂
  · rw [Option.bind_eq_some_iff] at hf₁ hf₂
    obtain ⟨e₁, a1, hf₁⟩ := hf₁
    obtain ⟨e₂, a2, hf₂⟩ := hf₂
    rw [Option.bind_eq_some_iff] at hf₁ hf₂
    obtain ⟨m₁, b1, hf₁⟩ := hf₁
    obtain ⟨m₂, b2, hf₂⟩ := hf₂
    obtain ⟨e, a3, a4⟩ := key a1 a2
    obtain ⟨m, b3, b4⟩ := key b1 b2
    obtain ⟨E₁, M₁, c₁, rfl, rfl, rfl⟩ := solveStatics_add a1 b1 hf₁
    obtain ⟨E₂, M₂, c₂, rfl, rfl, rfl⟩ := solveStatics_add a2 b2 hf₂
    rcases solveStatics_shape a3 with ⟨ts, q, rfl⟩ | ⟨E, c, rfl, r1, r2, r3⟩
    · exact a4.elim
    · rcases solveStatics_shape b3 with ⟨ts, q, rfl⟩ | ⟨M', c', rfl, r1', r2', r3'⟩
      · exact b4.elim
      · refine ⟨.radial ⟨E, M', c', none⟩, ?_, a4.1, b4.2.1, b4.2.2⟩
        rw [a3, b3]
        exact add_radial r1 r2 r1' r2' r3'

/-- **C84.** Let the excitation `x` give the same groups of the same mesh the same kinds of excitation as `x₁` and `x₂`, the voltages, voltage functions, magnetic potentials and currents of `x` being
`a` times those of `x₁` plus `b` times those of `x₂`, and the material constants the same. If `x₁` and `x₂` are solved then so is `x`, and all potentials and fields of `x` at all points are `a`
times those of `x₁` plus `b` times those of `x₂`, whatever the numbers of threads and the schedules (`x'`, `x₁'`, `x₂'` are the excitations on the mesh used for solving, see C12). -/
theorem C84_linear (hG : G.Lawful) (h : Combination a b x₁ x₂ x) (hv : Valid x.mesh) (hn : x.types.keys.Nodup)
    (u₁ : x₁.upgraded G = some x₁') (u₂ : x₂.upgraded G = some x₂') (u : x.upgraded G = some x')
    (he₁ : FaithfulEnv env₁ x₁') (he₂ : FaithfulEnv env₂ x₂') (he : FaithfulEnv env x') (hE₁ : EnoughLines env₁ x₁') (hE₂ : EnoughLines env₂ x₂') (hE : EnoughLines env x')
    (hf₁ : x₁.solveField G env₁ = some f₁) (hf₂ : x₂.solveField G env₂ = some f₂) :
    ∃ f, x.solveField G env = some f ∧ ∀ p,
      f.electrostaticPotential p = Combined a b (f₁.electrostaticPotential p) (f₂.electrostaticPotential p) ∧
      f.electrostaticField p = CombinedV a b (f₁.electrostaticField p) (f₂.electrostaticField p) ∧
      f.magnetostaticPotential p = Combined a b (f₁.magnetostaticPotential p) (f₂.magnetostaticPotential p) ∧
      f.magnetostaticField p = CombinedV a b (f₁.magnetostaticField p) (f₂.magnetostaticField p) ∧
      f.potentialAtPoint p = Combined a b (f₁.potentialAtPoint p) (f₂.potentialAtPoint p) ∧
      f.fieldAtPoint p = CombinedV a b (f₁.fieldAtPoint p) (f₂.fieldAtPoint p) := by
  obtain ⟨f, h1, h2⟩ := solveField_lin hG h hv hn u₁ u₂ u he₁ he₂ he hE₁ hE₂ hE hf₁ hf₂
  exact ⟨f, h1, fun p => h2.fields p⟩

/-- **C84**, a grounded problem has no field: if all voltages, potentials and currents are zero, then so are all potentials and fields that can be evaluated. -/
theorem C84_grounded (hG : G.Lawful) (hv : Valid x.mesh) (hn : x.types.keys.Nodup) (hz : ∀ n t, x.types.get n = some t →
      (t.1 = .voltageFun → ∃ f, t.2 = .fn f ∧ ∀ p, f p = 0) ∧ (t.1 = .dielectric ∨ t.1 = .magnetizable → ∃ v, t.2 = .num v) ∧
      (t.1 = .voltageFixed ∨ t.1 = .magnetostaticPot ∨ t.1 = .current → t.2 = .num 0))
    (u : x.upgraded G = some x') (he : FaithfulEnv env x') (hE : EnoughLines env x') {f : PyObj} (hf : x.solveField G env = some f) (p : V3) :
    f.electrostaticPotential p = some 0 ∧ f.electrostaticField p = some 0 ∧ f.magnetostaticPotential p = some 0 ∧ f.magnetostaticField p = some 0 := by
  have h : Combination 0 0 x x x := by
    refine ⟨rfl, rfl, rfl, rfl, rfl, rfl, ?_⟩
    intro n t₁ t₂ t h1 h2 h3
    rw [h1] at h2 h3
    cases h2
    cases h3
    obtain ⟨z1, z2, z3⟩ := hz n t₁ h1
    obtain ⟨k, v⟩ := t₁
    cases k <;> simp at z1 z2 z3
    · subst z3; simp [ExcCombination]
    · obtain ⟨g, rfl, hg⟩ := z1; simp [ExcCombination, hg]
    · obtain ⟨g, rfl⟩ := z2; simp [ExcCombination]
    · subst z3; simp [ExcCombination]
    · subst z3; simp [ExcCombination]
    · obtain ⟨g, rfl⟩ := z2; simp [ExcCombination]
  obtain ⟨f', h1, h2⟩ := solveField_lin hG h hv hn u u u he he he hE hE hE hf hf
  rw [hf] at h1
  cases h1
  obtain ⟨k1, k2, k3, k4, -⟩ := h2.fields p
  have zero : ∀ v w : V3, (0 : ℝ) * v + (0 : ℝ) * w = 0 := by intro v w; ext <;> simp
  cases f with
  | radial F =>
    simp only [PyObj.electrostaticPotential, PyObj.electrostaticField, PyObj.magnetostaticPotential, PyObj.magnetostaticField, Combined, CombinedV, Option.bind_some, Option.map_some, zero,
      zero_mul, add_zero] at k1 k2 k3 k4 ⊢
    exact ⟨k1, k2, k3, k4⟩
  | threeD F =>
    simp only [PyObj.electrostaticPotential, PyObj.electrostaticField, PyObj.magnetostaticPotential, PyObj.magnetostaticField, Combined, CombinedV, Option.bind_some, Option.map_some, zero,
      zero_mul, add_zero] at k1 k2 k3 k4 ⊢
    exact ⟨k1, k2, k3, k4⟩
  | _ => exact h2.elim

end

/-! ## An example -/

/-- The plate of C80 at any voltage. -/
noncomputable def plateAt (v : ℝ) : Excitation ℝ V3 := { mesh := plateMesh, electrodes := ["plate"], symmetry := .threeD, types := [("plate", .voltageFixed, .num v)] }

theorem plate_is2d : plateMesh.is2d realThirds = false := by
  unfold Mesh.is2d
  rw [List.all_eq_false]
  exact ⟨⟨1, 1, 0⟩, by simp [plateMesh], by simp [realThirds]⟩

theorem plateAt_env (v : ℝ) : ∃ env, FaithfulEnv env (plateAt v) := by
  obtain ⟨r, hr0, hr⟩ := plate_returns
  have hel : (plateAt v).solverInit .electrostatic = some ⟨.tris [plate], [some .voltageFixed], [v], .empty3d⟩ := by
    have ha : (plateAt v).activeElements .electrostatic = some ([[⟨0, 0, 0⟩, ⟨2, 0, 0⟩, ⟨1, 1, 0⟩]], [("plate", [0])]) := by rfl
    unfold solverInit
    rw [ha]
    have ht : ∀ centre, (plateAt v).typesAndValues [("plate", [0])] [[(⟨0, 0, 0⟩ : V3), ⟨2, 0, 0⟩, ⟨1, 1, 0⟩]].length centre = some ([some .voltageFixed], [v]) := fun _ => rfl
    simp only [Option.bind_eq_bind, Option.bind_some, ht]
    rw [show (plateAt v).mesh = plateMesh from rfl, plate_is2d]
    rfl
  have hmag : (plateAt v).solverInit .magnetostatic = some ⟨.tris [], [], [], ⟨12, [], [], []⟩⟩ := by
    have ha : (plateAt v).activeElements .magnetostatic = some ([], []) := by rfl
    unfold solverInit
    rw [ha]
    have ht : ∀ centre, (plateAt v).typesAndValues [] ([] : List (List V3)).length centre = some ([], []) := fun _ => rfl
    simp only [Option.bind_eq_bind, Option.bind_some, ht]
    rw [show (plateAt v).mesh = plateMesh from rfl, plate_is2d]
    rfl
  exact one_triangle_env hr hel hmag

/-- **C84**: the hypotheses of `C84_linear` are met by a plate at 10 V, at 10 V again and at `10 a + 10 b` V. -/
theorem C84_example (G : Geo V3) (a b : ℝ) : ∃ env env' f, Combination a b (plateAt 10) (plateAt 10) (plateAt (a * 10 + b * 10)) ∧ Valid plateMesh ∧
    (plateAt (a * 10 + b * 10)).types.keys.Nodup ∧ (∀ v, (plateAt v).upgraded G = some (plateAt v)) ∧ FaithfulEnv env (plateAt 10) ∧ FaithfulEnv env' (plateAt (a * 10 + b * 10)) ∧
    (∀ env v, EnoughLines env (plateAt v)) ∧ (plateAt 10).solveField G env = some f := by
  obtain ⟨x0, x, env, f, hv, h0, hx, hy, he, hf⟩ := C80_example G (fun _ => true)
  have : x = plateAt 10 := by
    have hnew : Excitation.new plateMesh .threeD (fun _ => true) = some ({ mesh := plateMesh, electrodes := ["plate"], symmetry := .threeD } : Excitation ℝ V3) := by
      unfold Excitation.new
      rw [if_neg (by simp)]
      rfl
    rw [hnew] at h0
    cases h0
    exact hx
  subst this
  obtain ⟨env', he'⟩ := plateAt_env (a * 10 + b * 10)
  refine ⟨env, env', f, ⟨rfl, rfl, rfl, rfl, rfl, rfl, ?_⟩, hv, by simp [Dict.keys, plateAt], fun v => ?_, he, he', fun env v h => (by cases h), hf⟩
  · intro n t₁ t₂ t h1 h2 h3
    have hget : ∀ (v : ℝ) (t : ExcType × ExcVal ℝ V3), (plateAt v).types.get n = some t → t = (.voltageFixed, .num v) := by
      intro v t h
      unfold Dict.get plateAt at h
      simp only [List.find?_cons, List.find?_nil] at h
      split at h
      · cases h; rfl
      · cases h
    rw [hget _ _ h1, hget _ _ h2, hget _ _ h3]
    simp [ExcCombination, plateAt]
  · unfold upgraded Mesh.solverMesh
    rw [show (plateAt v).mesh = plateMesh from rfl, plate_is2d]
    rfl

end Traceon
