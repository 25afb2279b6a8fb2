import Verif.Props.Linear

/-!
# C84: the solvers of a combination
-/
namespace Traceon
open Spec V3 Excitation

/-- solver.py:93-107 -/
noncomputable def elemsOf (m : Mesh V3) (verts : List (List V3)) : Option SolverElems :=
  if m.is2d realThirds then
    if m.isHigherOrder then (verts.mapM toLine4).map SolverElems.lines else none
  else
    if m.isHigherOrder then none else (verts.mapM toTri3).map SolverElems.tris

/-- The coils of a solver. -/
noncomputable def coilsIn (x : Excitation ℝ V3) : Statics → Option (EffCharges V3)
  | .electrostatic => some EffCharges.empty3d
  | .magnetostatic => x.currentCharges

theorem solverInit_eq (x : Excitation ℝ V3) (s : Statics) : x.solverInit s = (x.activeElements s).bind fun vn =>
    (x.typesAndValues vn.2 vn.1.length (fun k => elementCentre x.mesh (vn.1.getD k []))).bind fun tv =>
    (elemsOf x.mesh vn.1).bind fun el => (coilsIn x s).bind fun c => some ⟨el, tv.1, tv.2, c⟩ := by
  unfold solverInit elemsOf
  cases s <;> cases x.mesh.is2d realThirds <;> cases x.mesh.isHigherOrder <;> rfl

/-! ## The currents -/

/-- Two lists of numbers and their combination. -/
structure ListLin (a b : ℝ) (c₁ c₂ c : List ℝ) : Prop where
  len₁ : c₁.length = c.length
  len₂ : c₂.length = c.length
  lin : ∀ k : Nat, k < c.length → c.getD k 0 = a * c₁.getD k 0 + b * c₂.getD k 0

theorem ListLin.append {a b : ℝ} {c₁ c₂ c d₁ d₂ d : List ℝ} (h : ListLin a b c₁ c₂ c) (h' : ListLin a b d₁ d₂ d) :
    ListLin a b (c₁ ++ d₁) (c₂ ++ d₂) (c ++ d) := by
  refine ⟨by simp [h.len₁, h'.len₁], by simp [h.len₂, h'.len₂], fun k hk => ?_⟩
  by_cases hc : k < c.length
  · have := h.lin k hc
    simp only [List.getD_eq_getElem?_getD] at this ⊢
    rw [List.getElem?_append_left hc, List.getElem?_append_left (by rw [h.len₁]; exact hc), List.getElem?_append_left (by rw [h.len₂]; exact hc)]
    exact this
  · push Not at hc
    have := h'.lin (k - c.length) (by rw [List.length_append] at hk; omega)
    simp only [List.getD_eq_getElem?_getD] at this ⊢
    rw [List.getElem?_append_right hc, List.getElem?_append_right (by rw [h.len₁]; exact hc), List.getElem?_append_right (by rw [h.len₂]; exact hc), h.len₁, h.len₂]
    exact this

theorem ListLin.replicate {a b u v w : ℝ} (h : w = a * u + b * v) (n : Nat) : ListLin a b (List.replicate n u) (List.replicate n v) (List.replicate n w) := by
  refine ⟨by simp, by simp, fun k hk => ?_⟩
  have hk' : k < n := by simpa using hk
  simp [List.getD_eq_getElem?_getD, hk', h]

/-- Three states of the loop over the excitations. -/
def StepLin (a b : ℝ) (s₁ s₂ s : List ℝ × List (List ℝ) × List (List V3)) : Prop := ListLin a b s₁.1 s₂.1 s.1 ∧ s₁.2 = s.2 ∧ s₂.2 = s.2

section
variable {a b : ℝ} {x₁ x₂ x : Excitation ℝ V3}

theorem currentStep_lin (h₁ : x₁.mesh = x.mesh) (h₂ : x₂.mesh = x.mesh) {jac : List (List ℝ)} {pos : List (List V3)} {s₁ s₂ s r₁ r₂ : List ℝ × List (List ℝ) × List (List V3)}
    (hs : StepLin a b s₁ s₂ s) {n : String} {t₁ t₂ t : ExcType × ExcVal ℝ V3} (ht : ExcCombination a b t₁ t₂ t)
    (e₁ : x₁.currentStep jac pos s₁ (n, t₁) = some r₁) (e₂ : x₂.currentStep jac pos s₂ (n, t₂) = some r₂) :
    ∃ r, x.currentStep jac pos s (n, t) = some r ∧ StepLin a b r₁ r₂ r := by
  unfold currentStep at e₁ e₂ ⊢
  simp only [ht.kinds.1, ht.kinds.2, h₁, h₂] at e₁ e₂ ⊢
  split at e₁
  · rename_i hc
    rw [if_pos hc] at e₂ ⊢
    cases hg : x.mesh.physTris.get n with
    | none => rw [hg] at e₁; cases e₁
    | some idx =>
      rw [hg] at e₁ e₂
      simp only [Option.bind_eq_bind, Option.bind_some] at e₁ e₂ ⊢
      split at e₁
      · rename_i hi
        rw [if_pos hi] at e₂ ⊢
        cases e₁; cases e₂
        exact ⟨s, rfl, hs⟩
      · rename_i hi
        rw [if_neg hi] at e₂ ⊢
        simp only [Option.pure_def] at e₁ e₂ ⊢
        cases hj : gather jac idx with
        | none => rw [hj] at e₁; cases e₁
        | some j =>
          rw [hj] at e₁ e₂
          simp only [Option.bind_some] at e₁ e₂ ⊢
          cases hp : gather pos idx with
          | none => rw [hp] at e₁; cases e₁
          | some p =>
            rw [hp] at e₁ e₂
            simp only [Option.bind_some] at e₁ e₂ ⊢
            obtain ⟨k₁, v₁⟩ := t₁
            obtain ⟨k₂, v₂⟩ := t₂
            obtain ⟨k, v⟩ := t
            obtain ⟨rfl, _⟩ := hc
            obtain ⟨q₁, q₂⟩ := ht.kinds
            simp only at q₁ q₂
            subst q₁
            subst q₂
            cases v₁ <;> cases v₂ <;> cases v <;> try exact ht.elim
            rename_i u v w
            simp only [Option.some.injEq] at e₁ e₂ ⊢
            subst e₁
            subst e₂
            refine ⟨_, rfl, hs.1.append (ListLin.replicate ?_ _), ?_, ?_⟩
            · have : w = a * u + b * v := ht
              rw [this]; ring
            · simp [hs.2.1]
            · simp [hs.2.2]
  · rename_i hc
    rw [if_neg hc] at e₂ ⊢
    cases e₁; cases e₂
    exact ⟨s, rfl, hs⟩

theorem currentFold_lin (h₁ : x₁.mesh = x.mesh) (h₂ : x₂.mesh = x.mesh) {jac : List (List ℝ)} {pos : List (List V3)} :
    ∀ (l₁ l₂ l : Dict (ExcType × ExcVal ℝ V3)) {s₁ s₂ s r₁ r₂ : List ℝ × List (List ℝ) × List (List V3)}, StepLin a b s₁ s₂ s → l.keys.Nodup → l₁.keys = l.keys → l₂.keys = l.keys →
      (∀ n t₁ t₂ t, l₁.get n = some t₁ → l₂.get n = some t₂ → l.get n = some t → ExcCombination a b t₁ t₂ t) →
      l₁.foldlM (x₁.currentStep jac pos) s₁ = some r₁ → l₂.foldlM (x₂.currentStep jac pos) s₂ = some r₂ →
      ∃ r, l.foldlM (x.currentStep jac pos) s = some r ∧ StepLin a b r₁ r₂ r
  | [], [], [], s₁, s₂, s, r₁, r₂, hs, _, _, _, _, e₁, e₂ => by
    cases e₁; cases e₂
    exact ⟨s, rfl, hs⟩
  | _ :: _, _, [], _, _, _, _, _, _, _, hk, _, _, _, _ => by simp [Dict.keys] at hk
  | [], _, _ :: _, _, _, _, _, _, _, _, hk, _, _, _, _ => by simp [Dict.keys] at hk
  | _, _ :: _, [], _, _, _, _, _, _, _, _, hk, _, _, _ => by simp [Dict.keys] at hk
  | _, [], _ :: _, _, _, _, _, _, _, _, _, hk, _, _, _ => by simp [Dict.keys] at hk
  | (n₁, t₁) :: l₁, (n₂, t₂) :: l₂, (n, t) :: l, s₁, s₂, s, r₁, r₂, hs, hnd, hk₁, hk₂, hv, e₁, e₂ => by
    simp only [Dict.keys, List.map_cons, List.cons.injEq] at hk₁ hk₂
    obtain ⟨rfl, hk₁⟩ := hk₁
    obtain ⟨rfl, hk₂⟩ := hk₂
    simp only [Dict.keys, List.map_cons, List.nodup_cons] at hnd
    rw [List.foldlM_cons] at e₁ e₂
    cases q₁ : x₁.currentStep jac pos s₁ (n₂, t₁) with
    | none => rw [q₁] at e₁; cases e₁
    | some m₁ =>
      cases q₂ : x₂.currentStep jac pos s₂ (n₂, t₂) with
      | none => rw [q₂] at e₂; cases e₂
      | some m₂ =>
        rw [q₁] at e₁
        rw [q₂] at e₂
        obtain ⟨m, q, hm⟩ := currentStep_lin h₁ h₂ hs (hv n₂ t₁ t₂ t (by simp [Dict.get_cons]) (by simp [Dict.get_cons]) (by simp [Dict.get_cons])) q₁ q₂
        obtain ⟨r, g1, g2⟩ := currentFold_lin h₁ h₂ l₁ l₂ l hm hnd.2 hk₁ hk₂ (fun n' u₁ u₂ u w₁ w₂ w => by
          have hne : n₂ ≠ n' := by
            rintro rfl
            exact hnd.1 (List.mem_map.2 ⟨_, Dict.mem_of_get w, rfl⟩)
          exact hv n' u₁ u₂ u (by simp [Dict.get_cons, hne, w₁]) (by simp [Dict.get_cons, hne, w₂]) (by simp [Dict.get_cons, hne, w])) e₁ e₂
        refine ⟨r, ?_, g2⟩
        rw [List.foldlM_cons, q]
        exact g1

theorem any_kinds {y : Excitation ℝ V3} (hk : SameKinds y x) (hn : x.types.keys.Nodup) (hn' : y.types.keys.Nodup) (P : ExcType → Bool) :
    x.types.any (fun nv => P nv.2.1) = y.types.any (fun nv => P nv.2.1) := by
  rw [Bool.eq_iff_iff, List.any_eq_true, List.any_eq_true]
  constructor
  · rintro ⟨⟨n, t⟩, h1, h2⟩
    have := hk.kinds n
    rw [Dict.get_of_mem hn h1] at this
    obtain ⟨t', h3, h4⟩ := Option.map_eq_some_iff.1 this.symm
    exact ⟨(n, t'), Dict.mem_of_get h3, by simp only at h4 ⊢; rw [h4]; exact h2⟩
  · rintro ⟨⟨n, t⟩, h1, h2⟩
    have := hk.kinds n
    rw [Dict.get_of_mem hn' h1] at this
    obtain ⟨t', h3, h4⟩ := Option.map_eq_some_iff.1 this
    exact ⟨(n, t'), Dict.mem_of_get h3, by simp only at h4 ⊢; rw [h4]; exact h2⟩

theorem currentCharges_lin (h : Combination a b x₁ x₂ x) (hn : x.types.keys.Nodup) {c₁ c₂ : EffCharges V3} (e₁ : x₁.currentCharges = some c₁) (e₂ : x₂.currentCharges = some c₂) :
    ∃ c, x.currentCharges = some c ∧ EffLin a b c₁ c₂ c := by
  have hn₁ : x₁.types.keys.Nodup := by rw [h.names₁]; exact hn
  have hn₂ : x₂.types.keys.Nodup := by rw [h.names₂]; exact hn
  have k₁ : x.hasCurrent = x₁.hasCurrent := any_kinds h.sameKinds₁ hn hn₁ fun t => t = .current
  have k₂ : x.hasCurrent = x₂.hasCurrent := any_kinds h.sameKinds₂ hn hn₂ fun t => t = .current
  unfold currentCharges at e₁ e₂ ⊢
  rw [h.mesh₁, ← k₁] at e₁
  rw [h.mesh₂, ← k₂] at e₂
  split at e₁
  · rename_i hc
    rw [if_pos hc] at e₂ ⊢
    cases e₁; cases e₂
    exact ⟨_, rfl, EffLin.refl_nil rfl⟩
  · rename_i hc
    rw [if_neg hc] at e₂ ⊢
    cases hv : x.mesh.triangles.mapM (triVerts x.mesh.points) with
    | none => rw [hv] at e₁; cases e₁
    | some verts =>
      rw [hv] at e₁ e₂
      simp only [Option.bind_eq_bind, Option.bind_some] at e₁ e₂ ⊢
      cases q₁ : x₁.types.foldlM (x₁.currentStep (verts.map jacRow) (verts.map posRow)) ([], [], []) with
      | none => rw [q₁] at e₁; cases e₁
      | some r₁ =>
        cases q₂ : x₂.types.foldlM (x₂.currentStep (verts.map jacRow) (verts.map posRow)) ([], [], []) with
        | none => rw [q₂] at e₂; cases e₂
        | some r₂ =>
          obtain ⟨r, g1, g2, g3, g4⟩ := currentFold_lin h.mesh₁ h.mesh₂ x₁.types x₂.types x.types (a := a) (b := b) (s := ([], [], []))
            ⟨⟨rfl, rfl, fun k hk => by simp at hk⟩, rfl, rfl⟩ hn h.names₁ h.names₂ h.values q₁ q₂
          rw [q₁] at e₁
          rw [q₂] at e₂
          rw [g1]
          simp only [Option.bind_some] at e₁ e₂ ⊢
          obtain ⟨c, j, p⟩ := r
          obtain ⟨c₁', j₁, p₁⟩ := r₁
          obtain ⟨c₂', j₂, p₂⟩ := r₂
          simp only [Prod.mk.injEq] at g2 g3 g4 e₁ e₂ ⊢
          obtain ⟨rfl, rfl⟩ := g3
          obtain ⟨rfl, rfl⟩ := g4
          by_cases h0 : c = []
          · subst h0
            have z₁ : c₁' = [] := List.length_eq_zero_iff.1 (by simpa using g2.len₁)
            have z₂ : c₂' = [] := List.length_eq_zero_iff.1 (by simpa using g2.len₂)
            rw [if_pos z₁] at e₁
            rw [if_pos z₂] at e₂
            rw [if_pos rfl]
            cases e₁; cases e₂
            exact ⟨_, rfl, EffLin.refl_nil rfl⟩
          · have z₁ : c₁' ≠ [] := by
              intro h; rw [h] at g2; exact h0 (List.length_eq_zero_iff.1 (by simpa using g2.len₁.symm))
            have z₂ : c₂' ≠ [] := by
              intro h; rw [h] at g2; exact h0 (List.length_eq_zero_iff.1 (by simpa using g2.len₂.symm))
            rw [if_neg z₁] at e₁
            rw [if_neg z₂] at e₂
            rw [if_neg h0]
            obtain ⟨rfl, w₁⟩ := EffCharges.new_eq e₁
            obtain ⟨rfl, w₂⟩ := EffCharges.new_eq e₂
            refine ⟨⟨12, c, j₂, p₂⟩, ?_, rfl, rfl, rfl, rfl, g2.len₁, g2.len₂, g2.lin⟩
            unfold EffCharges.new
            rw [if_pos]
            exact ⟨by have := w₁.1; simp only at this ⊢; rw [← g2.len₁]; exact this, w₁.2.1, by have := w₁.2.2.1; simp only at this ⊢; rw [← g2.len₁]; exact this, w₁.2.2.2⟩

/-! ## The constructors -/

/-- Three solvers for the same elements. -/
structure StLin (a b : ℝ) (st₁ st₂ st : SolverState) : Prop where
  elems₁ : st₁.elems = st.elems
  elems₂ : st₂.elems = st.elems
  types₁ : st₁.types = st.types
  types₂ : st₂.types = st.types
  vals : ∀ k : Nat, k < st.size → ∃ ty v₁ v₂ v, st.types[k]? = some (some ty) ∧ st₁.values[k]? = some v₁ ∧ st₂.values[k]? = some v₂ ∧ st.values[k]? = some v ∧ ValLin a b ty v₁ v₂ v
  coils : EffLin a b st₁.coils st₂.coils st.coils

theorem InitSpec.size_eq {s : Statics} {st : SolverState} {idx : List Nat} (h : InitSpec x s st idx) : st.size = idx.length := by
  have := h.elems
  unfold SolverState.size
  cases he : st.elems <;> rw [he] at this <;> exact this.2.2.1

theorem solverInit_lin (h : Combination a b x₁ x₂ x) (hv : Valid x.mesh) (hn : x.types.keys.Nodup) {s : Statics} {st₁ st₂ : SolverState}
    (e₁ : x₁.solverInit s = some st₁) (e₂ : x₂.solverInit s = some st₂) : ∃ st, x.solverInit s = some st ∧ StLin a b st₁ st₂ st := by
  have hn₁ : x₁.types.keys.Nodup := by rw [h.names₁]; exact hn
  have hn₂ : x₂.types.keys.Nodup := by rw [h.names₂]; exact hn
  have hv₁ : Valid x₁.mesh := by rw [h.mesh₁]; exact hv
  have hv₂ : Valid x₂.mesh := by rw [h.mesh₂]; exact hv
  obtain ⟨idx₁, I₁⟩ := solverInit_spec hv₁ hn₁ e₁
  obtain ⟨idx₂, I₂⟩ := solverInit_spec hv₂ hn₂ e₂
  have hp : Proper x s := sameKinds_proper h.sameKinds₁ I₁.proper
  obtain ⟨verts, names, idx, ha⟩ := active_spec hv hn hp
  obtain ⟨verts₁, names₁, idx₁', ha₁⟩ := active_spec hv₁ hn₁ I₁.proper
  obtain ⟨verts₂, names₂, idx₂', ha₂⟩ := active_spec hv₂ hn₂ I₂.proper
  obtain ⟨rfl, rfl, rfl⟩ := sameKinds_active h.sameKinds₁ ha₁ ha
  obtain ⟨q1, q2, q3⟩ := sameKinds_active h.sameKinds₂ ha₂ ha
  rw [← q1, ← q2, ← q3] at ha₂
  clear q1 q2 q3
  have i₁ : idx₁ = idx := sorted_ext I₁.sorted ha₁.sorted fun i => by rw [I₁.mem, ha₁.mem]
  have i₂ : idx₂ = idx := sorted_ext I₂.sorted ha₂.sorted fun i => by rw [I₂.mem, ha₂.mem]
  subst i₁
  subst i₂
  obtain ⟨ts, vs, t1, t2, t3, t4⟩ := solver_arrays hv (h.numeric s) ha (fun k => elementCentre x.mesh (verts.getD k []))
  rw [solverInit_eq, ha₁.eq, Option.bind_some] at e₁
  rw [solverInit_eq, ha₂.eq, Option.bind_some] at e₂
  have hinit := solverInit_eq x s
  rw [ha.eq, Option.bind_some, t1, Option.bind_some] at hinit
  rw [h.mesh₁] at e₁
  rw [h.mesh₂] at e₂
  simp only at e₁ e₂ hinit
  cases w₁ : x₁.typesAndValues names verts.length (fun k => elementCentre x.mesh (verts.getD k [])) with
  | none => rw [w₁] at e₁; cases e₁
  | some tv₁ =>
    cases w₂ : x₂.typesAndValues names verts.length (fun k => elementCentre x.mesh (verts.getD k [])) with
    | none => rw [w₂] at e₂; cases e₂
    | some tv₂ =>
      rw [w₁, Option.bind_some] at e₁
      rw [w₂, Option.bind_some] at e₂
      cases hE : elemsOf x.mesh verts with
      | none => rw [hE] at e₁; cases e₁
      | some el =>
        rw [hE, Option.bind_some] at e₁ e₂ hinit
        have hcoil : ∀ {c₁ c₂}, coilsIn x₁ s = some c₁ → coilsIn x₂ s = some c₂ → ∃ c, coilsIn x s = some c ∧ EffLin a b c₁ c₂ c := by
          intro c₁ c₂ d₁ d₂
          cases s with
          | electrostatic => cases d₁; cases d₂; exact ⟨_, rfl, EffLin.refl_nil rfl⟩
          | magnetostatic => exact currentCharges_lin h hn d₁ d₂
        cases d₁ : coilsIn x₁ s with
        | none => rw [d₁] at e₁; cases e₁
        | some c₁ =>
          cases d₂ : coilsIn x₂ s with
          | none => rw [d₂] at e₂; cases e₂
          | some c₂ =>
            obtain ⟨c, d, hc⟩ := hcoil d₁ d₂
            rw [d₁, Option.bind_some, Option.some.injEq] at e₁
            rw [d₂, Option.bind_some, Option.some.injEq] at e₂
            rw [d, Option.bind_some] at hinit
            refine ⟨_, hinit, ?_⟩
            obtain ⟨idx', I⟩ := solverInit_spec hv hn hinit
            have i : idx' = idx₂ := sorted_ext I.sorted ha.sorted fun i => by rw [I.mem, ha.mem]
            subst i
            have key : ∀ k : Nat, k < idx'.length → ∃ ty v₁ v₂ v, ts[k]? = some (some ty) ∧ st₁.types[k]? = some (some ty) ∧ st₂.types[k]? = some (some ty) ∧
                st₁.values[k]? = some v₁ ∧ st₂.values[k]? = some v₂ ∧ vs[k]? = some v ∧ ValLin a b ty v₁ v₂ v := by
              intro k hk
              have hki : idx'[k]? = some idx'[k] := List.getElem?_eq_getElem hk
              obtain ⟨hil, hex⟩ := (I.mem _).1 (List.getElem_mem hk)
              have he : x.elements[idx'[k]]? = some x.elements[idx'[k]] := List.getElem?_eq_getElem hil
              obtain ⟨n, hd⟩ := exists_decides hex
              obtain ⟨_, _, _, _, _, ⟨t, ht, _⟩, _⟩ := id hd
              obtain ⟨t₁, t₂, ht₁, ht₂, hco⟩ := h.get ht
              have A := I.arrays k _ n t _ hki he hd ht
              have A₁ := I₁.arrays k _ n t₁ _ hki (by rw [← sameKinds_elements h.sameKinds₁]; exact he) ((sameKinds_decides h.sameKinds₁ _ _ _).1 hd) ht₁
              have A₂ := I₂.arrays k _ n t₂ _ hki (by rw [← sameKinds_elements h.sameKinds₂]; exact he) ((sameKinds_decides h.sameKinds₂ _ _ _).1 hd) ht₂
              rw [h.mesh₁] at A₁
              rw [h.mesh₂] at A₂
              have V := hco.valLin (elementCentre x.mesh (coords x.mesh.points x.elements[idx'[k]]))
              obtain ⟨ty, v⟩ := t
              obtain ⟨ty₁, v₁⟩ := t₁
              obtain ⟨ty₂, v₂⟩ := t₂
              refine ⟨ty, _, _, _, A.1, ?_, ?_, A₁.2.trans ?_, A₂.2.trans ?_, A.2.trans ?_, V⟩
              · rw [A₁.1, hco.kinds.1]
              · rw [A₂.1, hco.kinds.2]
              · cases v₁ <;> rfl
              · cases v₂ <;> rfl
              · cases v <;> rfl
            have tyeq : ∀ (ts' : List (Option ExcType)), ts'.length = idx'.length → (∀ k : Nat, k < idx'.length → ts'[k]? = ts[k]?) → ts' = ts := by
              intro ts' hl hh
              apply List.ext_getElem?
              intro k
              by_cases hk : k < idx'.length
              · exact hh k hk
              · rw [List.getElem?_eq_none (by omega), List.getElem?_eq_none (by omega)]
            refine ⟨?_, ?_, ?_, ?_, ?_, ?_⟩
            · rw [← e₁]
            · rw [← e₂]
            · refine tyeq _ I₁.typesLen fun k hk => ?_
              obtain ⟨ty, _, _, _, r1, r2, -⟩ := key k hk
              rw [r1, r2]
            · refine tyeq _ I₂.typesLen fun k hk => ?_
              obtain ⟨ty, _, _, _, r1, _, r2, -⟩ := key k hk
              rw [r1, r2]
            · intro k hk
              rw [I.size_eq] at hk
              obtain ⟨ty, v₁, v₂, v, r1, _, _, r2⟩ := key k hk
              exact ⟨ty, v₁, v₂, v, r1, r2⟩
            · rw [← e₁, ← e₂]
              exact hc

end
end Traceon
