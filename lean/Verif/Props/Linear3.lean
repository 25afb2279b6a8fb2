import Verif.Props.Linear2

/-!
# C84: `solve_direct` is linear in the excitation
-/
namespace Traceon
open Spec V3 Excitation

theorem fluxTerm_lin {a b : ℝ} {st₁ st₂ st : SolverState} (h : StLin a b st₁ st₂ st) (k : Nat) (μ : ℝ) :
    st.fluxTerm k μ = a * st₁.fluxTerm k μ + b * st₂.fluxTerm k μ := by
  unfold SolverState.fluxTerm
  rw [h.elems₁, h.elems₂]
  cases st.elems with
  | lines ls =>
    simp only
    cases ls[k]? with
    | none => simp
    | some l =>
      simp only [fluxTermRadial, h.coils.currentField]
      simp
      ring
  | tris ts =>
    simp only
    cases ts[k]? with
    | none => simp
    | some t =>
      simp only [fluxTerm3d, h.coils.currentField]
      simp
      ring

theorem rhs_lin {a b : ℝ} {st₁ st₂ st : SolverState} (h : StLin a b st₁ st₂ st) (s : Statics) {k : Nat} (hk : k < st.size) :
    (st.rhs s).getD k 0 = a * (st₁.rhs s).getD k 0 + b * (st₂.rhs s).getD k 0 := by
  obtain ⟨ty, v₁, v₂, v, e1, e2, e3, e4, e5⟩ := h.vals k hk
  cases s with
  | electrostatic =>
    rw [rhs_electro e1 e4, rhs_electro (by rw [h.types₁]; exact e1) e2, rhs_electro (by rw [h.types₂]; exact e1) e3]
    cases ty <;> simp only [rhsElectric] <;> first | exact e5 | simp
  | magnetostatic =>
    rw [rhs_magneto e1 e4, rhs_magneto (by rw [h.types₁]; exact e1) e2, rhs_magneto (by rw [h.types₂]; exact e1) e3]
    cases ty <;> simp only [rhsMagnetic] <;> try (first | exact e5 | simp)
    obtain ⟨rfl, rfl⟩ : v = v₁ ∧ v = v₂ := e5
    exact fluxTerm_lin h k v

/-- The material constants of two solvers agree. -/
def SameMaterial (st st' : SolverState) : Prop :=
  ∀ k : Nat, (st.types[k]?).join = some .dielectric ∨ (st.types[k]?).join = some .magnetizable → st'.values.getD k 0 = st.values.getD k 0

theorem fillOps3d_values {o : TriRoutines} {t : Nat → Tri3} {ty : Nat → Option ExcType} {v v' : Nat → ℝ} {i : Nat}
    (h : ty i = some .dielectric ∨ ty i = some .magnetizable → v' i = v i) (j : Nat) : fillOps3d o t ty v' i j = fillOps3d o t ty v i j := by
  unfold fillOps3d
  cases hk : ty i with
  | none => rfl
  | some k =>
    rw [hk] at h
    cases k <;> first | rfl | (have := h (by simp); simp only [this])

theorem fillOpsRadial_values {l : Nat → Line4} {ty : Nat → Option ExcType} {v v' : Nat → ℝ} {i : Nat}
    (h : ty i = some .dielectric ∨ ty i = some .magnetizable → v' i = v i) (j : Nat) : fillOpsRadial l ty v' i j = fillOpsRadial l ty v i j := by
  unfold fillOpsRadial
  cases hk : ty i with
  | none => rfl
  | some k =>
    rw [hk] at h
    cases k <;> first | rfl | (have := h (by simp); simp only [this])

theorem diagRadial_values {l : Nat → Line4} {ty : Nat → Option ExcType} {v v' : Nat → ℝ} {i : Nat}
    (h : ty i = some .dielectric ∨ ty i = some .magnetizable → v' i = v i) : diagRadial l ty v' i = diagRadial l ty v i := by
  unfold diagRadial
  cases hk : ty i with
  | none => rfl
  | some k =>
    rw [hk] at h
    cases k <;> first | rfl | (have := h (by simp); simp only [this])

theorem id_tri (t : Tri3) : RigidMotion.id.tri t = t := by
  unfold RigidMotion.tri
  simp only [RigidMotion.id_move]

/-- What is needed for the matrix of a solver to be filled as intended. -/
def MatrixReady (st : SolverState) (env : SolveEnv) (s : Statics) : Prop :=
  0 < env.threads ∧ match st.elems with
    | .tris ts =>
        env.routines.Correct ts.length (ts.getD · ⟨0, 0, 0⟩) (fun i => (st.types[i]?).join) ∧
        Joined (env.sched s) (matrixProgs false ts.length env.threads
          (fillOps3d env.routines (ts.getD · ⟨0, 0, 0⟩) (fun i => (st.types[i]?).join) (st.values.getD · 0)))
    | .lines ls => (ls ≠ [] → 2 * env.threads ≤ ls.length) ∧
        Joined (env.sched s) (matrixProgs true ls.length env.threads
          (fillOpsRadial (ls.getD · ⟨0, 0, 0, 0⟩) (fun i => (st.types[i]?).join) (st.values.getD · 0)))

/-- Solvers with the same elements, types and material constants have the same matrix, with any number of threads and in any schedule. -/
theorem matrix_values {st st' : SolverState} {env env' : SolveEnv} {s : Statics} (hel : st'.elems = st.elems) (hty : st'.types = st.types) (hm : SameMaterial st st')
    (h : MatrixReady st env s) (h' : MatrixReady st' env' s) (h0 : st.size ≠ 0) :
    ∃ A A', st.matrix env s = some A ∧ st'.matrix env' s = some A' ∧ ∀ i j, i < st.size → j < st.size → A' i j = A i j := by
  obtain ⟨hT, hr⟩ := h
  obtain ⟨hT', hr'⟩ := h'
  obtain ⟨T, hTT⟩ := Int.eq_ofNat_of_zero_le hT.le
  obtain ⟨T', hTT'⟩ := Int.eq_ofNat_of_zero_le hT'.le
  have hm' : ∀ i, (st.types[i]?).join = some .dielectric ∨ (st.types[i]?).join = some .magnetizable → st'.values.getD i 0 = st.values.getD i 0 := hm
  unfold SolverState.matrix SolverState.size at *
  rw [hel] at hr' ⊢
  rw [hty] at hr' ⊢
  rw [hTT] at hr hT ⊢
  rw [hTT'] at hr' hT' ⊢
  cases he : st.elems with
  | tris ts =>
    rw [he] at hr hr' h0
    simp only at hr hr' h0 ⊢
    obtain ⟨A, hA, hp⟩ := C36_threeD _ T (by simpa using hT) _ (fun _ => 0) (env.sched s) hr.2
    obtain ⟨A', hA', hp'⟩ := C36_threeD _ T' (by simpa using hT') _ (fun _ => 0) (env'.sched s) hr'.2
    refine ⟨A, A', hA, hA', fun i j hi hj => ?_⟩
    rw [hp i j hi hj, hp' i j hi hj, fillOps3d_values (v := (st.values.getD · 0)) (hm' i),
      fillOps3d_move RigidMotion.id (e := fun i => i) (fun i hi => hi) (fun i _ j _ h => h) (fun i _ => (id_tri _).symm) (fun i _ => rfl) (fun i _ => rfl) hr.1 hr'.1 (Or.inl rfl) hi hj]
  | lines ls =>
    rw [he] at hr hr' h0
    simp only at hr hr' h0 ⊢
    have hne : ls ≠ [] := by rintro rfl; simp at h0
    have h2 := hr.1 hne
    have h2' := hr'.1 hne
    obtain ⟨A, hA, hp⟩ := C36_radial_partial ls.length T (by simpa using hT) (by exact_mod_cast h2) _
      (diagRadial (ls.getD · SolverState.noLine) (fun i => (st.types[i]?).join) (st.values.getD · 0)) (env.sched s) hr.2
    obtain ⟨A', hA', hp'⟩ := C36_radial_partial ls.length T' (by simpa using hT') (by exact_mod_cast h2') _
      (diagRadial (ls.getD · SolverState.noLine) (fun i => (st.types[i]?).join) (st'.values.getD · 0)) (env'.sched s) hr'.2
    refine ⟨A, A', hA, hA', fun i j hi hj => ?_⟩
    rw [hp i j hi hj, hp' i j hi hj, fillOpsRadial_values (v := (st.values.getD · 0)) (hm' i), diagRadial_values (v := (st.values.getD · 0)) (hm' i)]

theorem linSolve_lin {n : Nat} {a b : ℝ} {A : Matrix (Fin n) (Fin n) ℝ} {F₁ F₂ F q₁ q₂ : List ℝ} (hF : ∀ k < n, F.getD k 0 = a * F₁.getD k 0 + b * F₂.getD k 0)
    (h₁ : linSolve A F₁ = some q₁) (h₂ : linSolve A F₂ = some q₂) : ∃ q, linSolve A F = some q ∧ ListLin a b q₁ q₂ q := by
  unfold linSolve at h₁ h₂ ⊢
  split at h₁ <;> rename_i hd
  · cases h₁
  · rw [if_neg hd] at h₂ ⊢
    refine ⟨_, rfl, ?_⟩
    cases h₁
    cases h₂
    refine ⟨by simp, by simp, fun k hk => ?_⟩
    have hk' : k < n := by simpa using hk
    have : (fun i : Fin n => F.getD i 0) = a • (fun i : Fin n => F₁.getD i 0) + b • (fun i : Fin n => F₂.getD i 0) := by
      funext i
      simpa using hF i i.2
    rw [this, Matrix.mulVec_add, Matrix.mulVec_smul, Matrix.mulVec_smul]
    simp [List.getD_eq_getElem?_getD, hk']

theorem sameMaterial₁ {a b : ℝ} {st₁ st₂ st : SolverState} (h : StLin a b st₁ st₂ st) (htl : st.types.length = st.size) : SameMaterial st₁ st ∧ SameMaterial st₂ st := by
  have key : ∀ k, (st.types[k]?).join = some .dielectric ∨ (st.types[k]?).join = some .magnetizable →
      st.values.getD k 0 = st₁.values.getD k 0 ∧ st.values.getD k 0 = st₂.values.getD k 0 := by
    intro k hk
    have hl : k < st.size := by
      by_contra hc
      rw [List.getElem?_eq_none (by omega)] at hk
      simp at hk
    obtain ⟨ty, v₁, v₂, v, e1, e2, e3, e4, e5⟩ := h.vals k hl
    rw [e1] at hk
    simp only [Option.join_some, Option.some.injEq] at hk
    simp only [List.getD_eq_getElem?_getD, e2, e3, e4, Option.getD_some]
    rcases hk with rfl | rfl <;> exact e5
  constructor
  · intro k hk; rw [h.types₁] at hk; exact (key k hk).1
  · intro k hk; rw [h.types₂] at hk; exact (key k hk).2

theorem charges_lin {a b : ℝ} {st₁ st₂ st : SolverState} (h : StLin a b st₁ st₂ st) (htl : st.types.length = st.size) {env₁ env₂ env : SolveEnv} {s : Statics}
    (hr₁ : MatrixReady st₁ env₁ s) (hr₂ : MatrixReady st₂ env₂ s) (hr : MatrixReady st env s) {q₁ q₂ : List ℝ} (e₁ : st₁.charges env₁ s = some q₁) (e₂ : st₂.charges env₂ s = some q₂) :
    ∃ q, st.charges env s = some q ∧ ListLin a b q₁ q₂ q ∧ q.length = st.size := by
  have hs₁ : st₁.size = st.size := by unfold SolverState.size; rw [h.elems₁]
  have hs₂ : st₂.size = st.size := by unfold SolverState.size; rw [h.elems₂]
  obtain ⟨m₁, m₂⟩ := sameMaterial₁ h htl
  unfold SolverState.charges at e₁ e₂ ⊢
  by_cases h0 : st.size = 0
  · rw [if_pos (hs₁.trans h0)] at e₁
    rw [if_pos (hs₂.trans h0)] at e₂
    rw [if_pos h0]
    cases e₁; cases e₂
    exact ⟨[], rfl, ⟨rfl, rfl, fun k hk => by simp at hk⟩, h0.symm⟩
  · rw [if_neg (by omega)] at e₁ e₂
    rw [if_neg h0]
    obtain ⟨A₁, A, hA₁, hA, hAA₁⟩ := matrix_values h.elems₁.symm h.types₁.symm m₁ hr₁ hr (by omega)
    obtain ⟨A₂, A', hA₂, hA', hAA₂⟩ := matrix_values h.elems₂.symm h.types₂.symm m₂ hr₂ hr (by omega)
    obtain rfl : A' = A := Option.some.inj (hA'.symm.trans hA)
    rw [hA₁] at e₁
    rw [hA₂] at e₂
    rw [hA]
    simp only [Option.bind_eq_bind, Option.bind_some] at e₁ e₂ ⊢
    have c : ∀ {n m : Nat} (hnm : n = m) (B : Nat → Nat → ℝ) (F : List ℝ), linSolve (Matrix.of fun i j : Fin n => B i j) F = linSolve (Matrix.of fun i j : Fin m => B i j) F := by
      rintro n _ rfl B F; rfl
    rw [c hs₁] at e₁
    rw [c hs₂] at e₂
    have M₁ : (Matrix.of fun i j : Fin st.size => A₁ i j) = Matrix.of fun i j : Fin st.size => A' i j := by
      ext i j; exact (hAA₁ i j (by rw [hs₁]; exact i.2) (by rw [hs₁]; exact j.2)).symm
    have M₂ : (Matrix.of fun i j : Fin st.size => A₂ i j) = Matrix.of fun i j : Fin st.size => A' i j := by
      ext i j; exact (hAA₂ i j (by rw [hs₂]; exact i.2) (by rw [hs₂]; exact j.2)).symm
    rw [M₁] at e₁
    rw [M₂] at e₂
    obtain ⟨q, g1, g2⟩ := linSolve_lin (fun k hk => rhs_lin h s hk) e₁ e₂
    exact ⟨q, g1, g2, (linSolve_rows g1).1⟩

/-- Three fields made by the same solver. -/
def FieldLin (a b : ℝ) : PyObj → PyObj → PyObj → Prop
  | .radial f₁, .radial f₂, .radial f => EffLin a b f₁.elec f₂.elec f.elec ∧ EffLin a b f₁.mag f₂.mag f.mag ∧ EffLin a b f₁.cur f₂.cur f.cur
  | .threeD f₁, .threeD f₂, .threeD f => EffLin a b f₁.elec f₂.elec f.elec ∧ EffLin a b f₁.mag f₂.mag f.mag
  | _, _, _ => False

theorem effLin_empty2d {a b : ℝ} : EffLin a b (EffCharges.empty2d : EffCharges (ℝ × ℝ)) .empty2d .empty2d := EffLin.refl_nil rfl
theorem effLin_empty3d {a b : ℝ} : EffLin a b (EffCharges.empty3d : EffCharges V3) .empty3d .empty3d := EffLin.refl_nil rfl

theorem new_lin {P : Type} {a b : ℝ} {nq : Nat} {q₁ q₂ q : List ℝ} {j : List (List ℝ)} {p : List (List P)} {e₁ e₂ : EffCharges P} (h : ListLin a b q₁ q₂ q)
    (h₁ : EffCharges.new nq q₁ j p = some e₁) (h₂ : EffCharges.new nq q₂ j p = some e₂) : ∃ e, EffCharges.new nq q j p = some e ∧ EffLin a b e₁ e₂ e := by
  obtain ⟨rfl, w₁⟩ := EffCharges.new_eq h₁
  obtain ⟨rfl, w₂⟩ := EffCharges.new_eq h₂
  refine ⟨⟨nq, q, j, p⟩, ?_, rfl, rfl, rfl, rfl, h.len₁, h.len₂, h.lin⟩
  unfold EffCharges.new
  rw [if_pos]
  exact ⟨by have := w₁.1; simp only at this ⊢; rw [← h.len₁]; exact this, w₁.2.1, by have := w₁.2.2.1; simp only at this ⊢; rw [← h.len₁]; exact this, w₁.2.2.2⟩

theorem solve_lin {a b : ℝ} {st₁ st₂ st : SolverState} (h : StLin a b st₁ st₂ st) (htl : st.types.length = st.size) {env₁ env₂ env : SolveEnv} {s : Statics}
    (hr₁ : MatrixReady st₁ env₁ s) (hr₂ : MatrixReady st₂ env₂ s) (hr : MatrixReady st env s) {f₁ f₂ : PyObj} (e₁ : st₁.solve env₁ s = some f₁) (e₂ : st₂.solve env₂ s = some f₂) :
    ∃ f, st.solve env s = some f ∧ FieldLin a b f₁ f₂ f := by
  unfold SolverState.solve at e₁ e₂ ⊢
  cases d₁ : st₁.charges env₁ s with
  | none => rw [d₁] at e₁; cases e₁
  | some q₁ =>
    cases d₂ : st₂.charges env₂ s with
    | none => rw [d₂] at e₂; cases e₂
    | some q₂ =>
      obtain ⟨q, d, hq, _⟩ := charges_lin h htl hr₁ hr₂ hr d₁ d₂
      rw [d₁, h.elems₁] at e₁
      rw [d₂, h.elems₂] at e₂
      rw [d]
      simp only [Option.bind_eq_bind, Option.bind_some] at e₁ e₂ ⊢
      cases he : st.elems with
      | lines ls =>
        rw [he] at e₁ e₂
        simp only [Option.map_eq_some_iff] at e₁ e₂
        obtain ⟨g₁, n₁, rfl⟩ := e₁
        obtain ⟨g₂, n₂, rfl⟩ := e₂
        obtain ⟨g, n, hg⟩ := new_lin hq n₁ n₂
        simp only [n, Option.map_some, Option.some.injEq, exists_eq_left']
        cases s with
        | electrostatic => exact ⟨hg, effLin_empty2d, effLin_empty3d⟩
        | magnetostatic => exact ⟨effLin_empty2d, hg, h.coils⟩
      | tris ts =>
        rw [he] at e₁ e₂
        simp only [Option.map_eq_some_iff] at e₁ e₂
        obtain ⟨g₁, n₁, rfl⟩ := e₁
        obtain ⟨g₂, n₂, rfl⟩ := e₂
        obtain ⟨g, n, hg⟩ := new_lin hq n₁ n₂
        simp only [n, Option.map_some, Option.some.injEq, exists_eq_left']
        cases s with
        | electrostatic => exact ⟨hg, effLin_empty3d⟩
        | magnetostatic => exact ⟨effLin_empty3d, hg⟩

theorem matrixReady {x : Excitation ℝ V3} (hv : Valid x.mesh) (hn : x.types.keys.Nodup) {env : SolveEnv} (he : FaithfulEnv env x) (hE : EnoughLines env x) {s : Statics}
    {st : SolverState} (hst : x.solverInit s = some st) : MatrixReady st env s ∧ st.types.length = st.size := by
  obtain ⟨idx, hI⟩ := solverInit_spec hv hn hst
  refine ⟨⟨he.1, ?_⟩, by rw [hI.typesLen, hI.size_eq]⟩
  have henv := he.2 s st hst
  have hel := hI.elems
  cases hE' : st.elems with
  | tris ts => rw [hE'] at henv; exact henv
  | lines ls =>
    rw [hE'] at henv hel
    simp only at henv hel ⊢
    obtain ⟨-, -, hlen, hget⟩ := hel
    refine ⟨fun hne => ?_, henv⟩
    have hpos : 0 < idx.length := by rw [← hlen]; exact List.length_pos_iff.2 hne
    cases hsym : x.symmetry with
    | radial =>
      have hels : x.elements = x.mesh.lines := by unfold Excitation.elements; rw [hsym]; rfl
      obtain ⟨js, hnd, hmem, hle⟩ := hE hsym s ⟨idx[0], by rw [← hels]; exact (hI.mem _).1 (List.getElem_mem hpos)⟩
      have hsub : js ⊆ idx := fun i hi => (hI.mem i).2 (by rw [hels]; exact hmem i hi)
      have := (List.subperm_of_subset hnd hsub).length_le
      rw [hlen]
      have h3 : (js.length : Int) ≤ idx.length := by exact_mod_cast this
      omega
    | threeD =>
      exfalso
      have hels : x.elements = x.mesh.triangles := by unfold Excitation.elements; rw [hsym]; rfl
      have hk := hget 0 idx[0] (by simp [hpos])
      have hi := ((hI.mem _).1 (List.getElem_mem hpos)).1
      rw [hels] at hi hk
      rw [List.getElem?_eq_getElem (by omega), List.getElem?_eq_getElem hi, Option.bind_some] at hk
      obtain ⟨hl3, hb⟩ := hv.tris _ (List.getElem_mem hi)
      generalize x.mesh.triangles[idx[0]] = e at hk hl3 hb
      match e, hl3 with
      | [i, j, k], _ =>
        have ha := hb i (by simp)
        have hb' := hb j (by simp)
        have hc := hb k (by simp)
        simp [coords, ha, hb', hc, toLine4] at hk

section
variable {a b : ℝ} {x₁ x₂ x : Excitation ℝ V3} {env₁ env₂ env : SolveEnv}

theorem solveStatics_lin (h : Combination a b x₁ x₂ x) (hv : Valid x.mesh) (hn : x.types.keys.Nodup) (he₁ : FaithfulEnv env₁ x₁) (he₂ : FaithfulEnv env₂ x₂) (he : FaithfulEnv env x)
    (hE₁ : EnoughLines env₁ x₁) (hE₂ : EnoughLines env₂ x₂) (hE : EnoughLines env x) {s : Statics} {f₁ f₂ : PyObj}
    (e₁ : x₁.solveStatics env₁ s = some f₁) (e₂ : x₂.solveStatics env₂ s = some f₂) : ∃ f, x.solveStatics env s = some f ∧ FieldLin a b f₁ f₂ f := by
  unfold solveStatics at e₁ e₂ ⊢
  cases d₁ : x₁.solverInit s with
  | none => rw [d₁] at e₁; cases e₁
  | some st₁ =>
    cases d₂ : x₂.solverInit s with
    | none => rw [d₂] at e₂; cases e₂
    | some st₂ =>
      obtain ⟨st, d, hst⟩ := solverInit_lin h hv hn d₁ d₂
      rw [d₁] at e₁
      rw [d₂] at e₂
      rw [d]
      simp only [Option.bind_eq_bind, Option.bind_some] at e₁ e₂ ⊢
      obtain ⟨r, hl⟩ := matrixReady hv hn he hE d
      exact solve_lin hst hl (matrixReady (by rw [h.mesh₁]; exact hv) (by rw [h.names₁]; exact hn) he₁ hE₁ d₁).1
        (matrixReady (by rw [h.mesh₂]; exact hv) (by rw [h.names₂]; exact hn) he₂ hE₂ d₂).1 r e₁ e₂

end
end Traceon
