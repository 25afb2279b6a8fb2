import Verif.Props.Invisible

/-!
# C88: the fields
-/
namespace Traceon
open Spec Excitation

/-- Two sets of charges which cannot be told apart by their fields. -/
def SameSources {P : Type} (e e' : EffCharges P) : Prop := ∀ f : P → ℝ, superpose f e' = superpose f e

theorem SameSources.radial {e e' : EffCharges (ℝ × ℝ)} (h : SameSources e e') (p : V3) : potentialRadial p e' = potentialRadial p e ∧ fieldRadial p e' = fieldRadial p e := by
  unfold potentialRadial fieldRadial
  simp only [EffCharges.loop_eq, EffCharges.loopSub_eq, h _, and_self]

theorem SameSources.threeD {e e' : EffCharges V3} (h : SameSources e e') (p : V3) : potential3d p e' = potential3d p e ∧ field3d p e' = field3d p e := by
  unfold potential3d field3d
  simp only [EffCharges.loop_eq, EffCharges.loopSub_eq, h _, and_self]

theorem SameSources.refl {P : Type} (e : EffCharges P) : SameSources e e := fun _ => rfl

theorem zip_sum {β : Type} (d : β) (F : ℝ → β → ℝ) (q : List ℝ) (ls : List β) (hl : q.length = ls.length) :
    ((q.zip ls).map fun x => F x.1 x.2).sum = ∑ k : Fin ls.length, F (q.getD k 0) (ls.getD k d) := by
  induction ls generalizing q with
  | nil => simp
  | cons a ls ih =>
    cases q with
    | nil => simp at hl
    | cons b q =>
      simp only [List.length_cons, Nat.add_right_cancel_iff] at hl
      rw [List.zip_cons_cons, List.map_cons, List.sum_cons, ih q hl]
      refine Eq.trans ?_ (Fin.sum_univ_succ (n := ls.length) fun k : Fin (ls.length + 1) => F ((b :: q).getD k 0) ((a :: ls).getD k d)).symm
      simp

theorem sameSources_drop {P β : Type} (d : β) {n : Nat} {q q' : List ℝ} {ls ls' : List β} {J : β → List ℝ} {X : β → List P} {κ : Nat → Nat} (hl : q.length = ls.length)
    (hl' : q'.length = ls'.length) (lt : ∀ k < ls'.length, κ k < ls.length) (inj : ∀ k < ls'.length, ∀ l < ls'.length, κ k = κ l → k = l)
    (hel : ∀ k < ls'.length, ls'.getD k d = ls.getD (κ k) d) (hq : ∀ k < ls'.length, q'.getD k 0 = q.getD (κ k) 0)
    (h0 : ∀ k < ls.length, (∀ j < ls'.length, κ j ≠ k) → q.getD k 0 = 0) :
    SameSources (⟨n, q, ls.map J, ls.map X⟩ : EffCharges P) ⟨n, q', ls'.map J, ls'.map X⟩ := by
  intro f
  rw [superpose_rows, superpose_rows, zip_sum d (fun a b => a * (((J b).zip (X b)).map fun k => k.1 * f k.2).sum) q' ls' hl',
    zip_sum d (fun a b => a * (((J b).zip (X b)).map fun k => k.1 * f k.2).sum) q ls hl]
  let κ' : Fin ls'.length → Fin ls.length := fun k => ⟨κ k, lt k k.2⟩
  refine Fintype.sum_of_injective κ' (fun k l hkl => Fin.ext (inj k k.2 l l.2 (congrArg Fin.val hkl))) _ _ ?_ ?_
  · intro k hk
    rw [h0 k k.2 fun j hj hji => hk ⟨⟨j, hj⟩, Fin.ext hji⟩, zero_mul]
  · intro k
    rw [hel k k.2, hq k k.2]

/-- What the solvers return. -/
theorem Dropped.solve {st st' : SolverState} {κ : Nat → Nat} {s : Statics} (h : Dropped st st' κ) {env env' : SolveEnv} (hM : MatrixReady st env s) (hM' : MatrixReady st' env' s) :
    ((∃ f, st.solve env s = some f) ↔ ∃ f', st'.solve env' s = some f') ∧
    ∀ f f', st.solve env s = some f → st'.solve env' s = some f' →
      (∃ e e', SameSources e e' ∧ f = toFieldRadial s st.coils e ∧ f' = toFieldRadial s st.coils e') ∨ ∃ e e', SameSources e e' ∧ f = toField3d s e ∧ f' = toField3d s e' := by
  obtain ⟨h1, h2⟩ := h.charges hM hM'
  have hnew : ∀ (ls : List Line4) (q : List ℝ), q.length = ls.length → EffCharges.new 16 q (ls.map lineJacRow) (ls.map linePosRow) = some (lineCharges ls q) := by
    intro ls q hl
    unfold EffCharges.new
    rw [if_pos ?_]
    · rfl
    · refine ⟨by simp [hl], ?_, by simp [hl], ?_⟩ <;> simp [lineJacRow, linePosRow, gaussRule]
  have hnew3 : ∀ (ts : List Tri3) (q : List ℝ), q.length = ts.length → EffCharges.new 12 q (ts.map jacRow) (ts.map posRow) = some (triCharges ts q) := by
    intro ts q hl
    unfold EffCharges.new
    rw [if_pos ?_]
    · rfl
    · refine ⟨by simp [hl], ?_, by simp [hl], ?_⟩ <;> simp [jacRow, posRow, quadRule]
  have key : ∀ q q', st.charges env s = some q → st'.charges env' s = some q' → ∃ f f', st.solve env s = some f ∧ st'.solve env' s = some f' ∧
      ((∃ e e', SameSources e e' ∧ f = toFieldRadial s st.coils e ∧ f' = toFieldRadial s st.coils e') ∨ ∃ e e', SameSources e e' ∧ f = toField3d s e ∧ f' = toField3d s e') := by
    intro q q' hq hq'
    obtain ⟨k1, k2, k3, k4⟩ := h2 q q' hq hq'
    unfold SolverState.solve
    rw [hq, hq']
    have he := h.elems
    have hlt := h.lt
    have hinj := h.inj
    cases e1 : st.elems with
    | lines ls =>
      cases e2 : st'.elems with
      | tris ts => rw [e1, e2] at he; exact he.elim
      | lines ls' =>
        rw [e1, e2] at he
        simp only at he
        have hs : st.size = ls.length := by unfold SolverState.size; rw [e1]
        have hs' : st'.size = ls'.length := by unfold SolverState.size; rw [e2]
        rw [hs] at k1 k4 hlt
        rw [hs'] at k2 k3 k4 hlt hinj
        simp only [Option.bind_eq_bind, Option.bind_some, hnew _ _ k1, hnew _ _ k2, Option.map_some, h.coils]
        exact ⟨_, _, rfl, rfl, Or.inl ⟨_, _, sameSources_drop ⟨0, 0, 0, 0⟩ k1 k2 hlt hinj he k3 k4, rfl, rfl⟩⟩
    | tris ts =>
      cases e2 : st'.elems with
      | lines ls => rw [e1, e2] at he; exact he.elim
      | tris ts' =>
        rw [e1, e2] at he
        simp only at he
        have hs : st.size = ts.length := by unfold SolverState.size; rw [e1]
        have hs' : st'.size = ts'.length := by unfold SolverState.size; rw [e2]
        rw [hs] at k1 k4 hlt
        rw [hs'] at k2 k3 k4 hlt hinj
        simp only [Option.bind_eq_bind, Option.bind_some, hnew3 _ _ k1, hnew3 _ _ k2, Option.map_some]
        exact ⟨_, _, rfl, rfl, Or.inr ⟨_, _, sameSources_drop ⟨0, 0, 0⟩ k1 k2 hlt hinj he k3 k4, rfl, rfl⟩⟩
  have hq : ∀ {st : SolverState} {env : SolveEnv} {f : PyObj}, st.solve env s = some f → ∃ q, st.charges env s = some q := by
    intro st env f hf
    unfold SolverState.solve at hf
    cases hq : st.charges env s with
    | none => rw [hq] at hf; cases hf
    | some q => exact ⟨q, rfl⟩
  refine ⟨⟨?_, ?_⟩, ?_⟩
  · rintro ⟨f, hf⟩
    obtain ⟨q, hq1⟩ := hq hf
    obtain ⟨q', hq2⟩ := h1.1 ⟨q, hq1⟩
    obtain ⟨_, f', -, h4, -⟩ := key q q' hq1 hq2
    exact ⟨f', h4⟩
  · rintro ⟨f, hf⟩
    obtain ⟨q', hq1⟩ := hq hf
    obtain ⟨q, hq2⟩ := h1.2 ⟨q', hq1⟩
    obtain ⟨f', _, h4, -⟩ := key q q' hq2 hq1
    exact ⟨f', h4⟩
  · intro f f' hf hf'
    obtain ⟨q, hq1⟩ := hq hf
    obtain ⟨q', hq2⟩ := hq hf'
    obtain ⟨g, g', h3, h4, h5⟩ := key q q' hq1 hq2
    rw [hf] at h3
    rw [hf'] at h4
    cases h3; cases h4
    exact h5

/-! ## The excitation without the materials -/

section
variable {x : Excitation ℝ V3} {N : List String}

theorem without_get (n : String) : (without x N).types.get n = if n ∈ N then none else x.types.get n := by
  unfold without
  simp only
  induction x.types with
  | nil => simp [Dict.get]
  | cons a d ih =>
    rw [List.filter_cons]
    by_cases ha : a.1 ∈ N
    · rw [if_neg (by simpa using ha), ih, Dict.get_cons]
      by_cases hn : n ∈ N
      · rw [if_pos hn, if_pos hn]
      · rw [if_neg hn, if_neg hn, if_neg (by rintro rfl; exact hn ha)]
    · rw [if_pos (by simpa using ha), Dict.get_cons, ih, Dict.get_cons]
      by_cases hn : n ∈ N
      · rw [if_neg (by rintro rfl; exact ha hn), if_pos hn, if_pos hn]
      · rw [if_neg hn, if_neg hn]

theorem without_keys (h : x.types.keys.Nodup) : (without x N).types.keys.Nodup := by
  unfold without Dict.keys at *
  exact (List.filter_sublist.map _).nodup h

theorem without_kind (s : Statics) (n : String) : HasKind (without x N) s n ↔ n ∉ N ∧ HasKind x s n := by
  unfold HasKind
  rw [without_get]
  by_cases h : n ∈ N <;> simp [h]

theorem without_physicals : (without x N).physicals = x.physicals := rfl
theorem without_elements : (without x N).elements = x.elements := rfl

theorem without_electro (hN : UnitMaterials x N) (hn : x.types.keys.Nodup) : (without x N).isElectrostatic = x.isElectrostatic ∧ (without x N).isMagnetostatic = x.isMagnetostatic ∧
    (without x N).hasCurrent = x.hasCurrent := by
  have key : ∀ P : ExcType → Bool, P .dielectric = false → P .magnetizable = false → (without x N).types.any (fun nv => P nv.2.1) = x.types.any fun nv => P nv.2.1 := by
    intro P h1 h2
    rw [Bool.eq_iff_iff, List.any_eq_true, List.any_eq_true]
    constructor
    · rintro ⟨nv, h, hp⟩
      exact ⟨nv, List.mem_of_mem_filter h, hp⟩
    · rintro ⟨nv, h, hp⟩
      refine ⟨nv, List.mem_filter.2 ⟨h, ?_⟩, hp⟩
      rw [decide_eq_true_eq]
      intro hmem
      rcases (hN _ hmem nv.2 (Dict.get_of_mem hn h)).1 with e | e <;> rw [e] at hp
      · rw [h1] at hp; cases hp
      · rw [h2] at hp; cases hp
  exact ⟨key (fun t => decide (t = .voltageFixed) || decide (t = .voltageFun)) rfl rfl, key (fun t => decide (t = .magnetostaticPot) || decide (t = .current)) rfl rfl,
    key (fun t => decide (t = .current)) rfl rfl⟩

theorem without_coils (hN : UnitMaterials x N) (hn : x.types.keys.Nodup) : (without x N).currentCharges = x.currentCharges := by
  have hfold : ∀ (jac : List (List ℝ)) (pos : List (List V3)) (d : Dict (ExcType × ExcVal ℝ V3)) (a : List ℝ × List (List ℝ) × List (List V3)), (∀ nv ∈ d, nv.1 ∈ N → nv.2.1 ≠ .current) →
      (d.filter fun nt => decide (nt.1 ∉ N)).foldlM ((without x N).currentStep jac pos) a = d.foldlM (x.currentStep jac pos) a := by
    intro jac pos d
    induction d with
    | nil => intro a _; rfl
    | cons nv d ih =>
      intro a h
      rw [List.filter_cons]
      have ih := fun a => ih a fun nv' h' => h nv' (List.mem_cons_of_mem _ h')
      by_cases hm : nv.1 ∈ N
      · rw [if_neg (by simpa using hm), List.foldlM_cons]
        have : x.currentStep jac pos a nv = some a := by
          unfold currentStep
          rw [if_neg fun hc => h nv (List.mem_cons_self ..) hm hc.1]
          rfl
        rw [this]
        exact ih a
      · rw [if_pos (by simpa using hm), List.foldlM_cons, List.foldlM_cons]
        have e : (without x N).currentStep jac pos a nv = x.currentStep jac pos a nv := rfl
        rw [e]
        cases x.currentStep jac pos a nv with
        | none => rfl
        | some b => exact ih b
  have hc : ∀ nv ∈ x.types, nv.1 ∈ N → nv.2.1 ≠ .current := by
    intro nv h hm
    rcases (hN _ hm nv.2 (Dict.get_of_mem hn h)).1 with e | e <;> rw [e] <;> simp
  unfold currentCharges
  rw [(without_electro hN hn).2.2]
  have e1 : (without x N).mesh = x.mesh := rfl
  rw [e1]
  have := fun jac pos => hfold jac pos x.types ([], [], []) hc
  unfold without at this ⊢
  simp only [this]

theorem physicals_get (hv : Valid x.mesh) {n : String} {g : List Nat} (h : (n, g) ∈ x.physicals) : x.physicals.get n = some g := by
  have hk : x.physicals.keys.Nodup := by
    unfold physicals
    split
    · exact hv.keysLines
    · exact hv.keysTris
  exact Dict.get_of_mem hk h

theorem without_decides (hv : Valid x.mesh) (hA : Apart x N) {s : Statics} {i : Nat} {n : String} : Decides (without x N) s n i ↔ n ∉ N ∧ Decides x s n i := by
  constructor
  · rintro ⟨pre, g, post, h1, h2, h3, h4⟩
    rw [without_kind] at h3
    rw [without_physicals] at h1
    refine ⟨h3.1, pre, g, post, h1, h2, h3.2, fun n' g' hm hk => ?_⟩
    by_cases hn : n' ∈ N
    · intro hi
      exact hA s n' n g' g hn h3.1 hk h3.2 (physicals_get hv (by rw [h1]; simp [hm])) (physicals_get hv (by rw [h1]; simp)) i hi h2
    · exact h4 n' g' hm ((without_kind s n').2 ⟨hn, hk⟩)
  · rintro ⟨hn, pre, g, post, h1, h2, h3, h4⟩
    exact ⟨pre, g, post, h1, h2, (without_kind s n).2 ⟨hn, h3⟩, fun n' g' hm hk => h4 n' g' hm ((without_kind s n').1 hk).2⟩

theorem without_excited {s : Statics} {i : Nat} (h : Excited (without x N) s i) : Excited x s i := by
  rw [excited_iff] at h ⊢
  obtain ⟨n, g, h1, h2, h3⟩ := h
  exact ⟨n, g, h1, h2, ((without_kind s n).1 h3).2⟩

theorem excited_of_decides (hv : Valid x.mesh) {s : Statics} {i : Nat} {n : String} (h : Decides x s n i) : Excited x s i := by
  obtain ⟨pre, g, post, h1, h2, h3, h4⟩ := h
  rw [excited_iff]
  exact ⟨n, g, physicals_get hv (by rw [h1]; simp), h2, h3⟩

/-- The solver of the excitation without the materials. -/
theorem dropped_of_init (hv : Valid x.mesh) (hN : UnitMaterials x N) (hA : Apart x N) {s : Statics} {st st' : SolverState} {idx idx' : List Nat} (hI : InitSpec x s st idx)
    (hI' : InitSpec (without x N) s st' idx') (hco : (without x N).currentCharges = x.currentCharges) : ∃ κ, Dropped st st' κ := by
  have hsub : ∀ i ∈ idx', i ∈ idx := by
    intro i hi
    have := (hI'.mem i).1 hi
    exact (hI.mem i).2 ⟨this.1, without_excited this.2⟩
  have hs := hI.size_eq
  have hs' := hI'.size_eq
  have hnd : idx.Nodup := hI.sorted.imp fun h => ne_of_lt h
  have hnd' : idx'.Nodup := hI'.sorted.imp fun h => ne_of_lt h
  let κ : Nat → Nat := fun k => idx.idxOf (idx'.getD k 0)
  have hκ : ∀ (k i : Nat), idx'[k]? = some i → idx[κ k]? = some i := by
    intro k i hk
    have hi := hsub i (List.mem_of_getElem? hk)
    have : κ k = idx.idxOf i := by simp only [κ, List.getD_eq_getElem?_getD, hk, Option.getD_some]
    rw [this, List.getElem?_eq_getElem (List.idxOf_lt_length_iff.2 hi), List.getElem_idxOf]
  have hex : ∀ k < st'.size, ∃ i e, idx'[k]? = some i ∧ x.elements[i]? = some e := by
    intro k hk
    rw [hs'] at hk
    have hk' : idx'[k]? = some idx'[k] := List.getElem?_eq_getElem hk
    have := ((hI'.mem _).1 (List.mem_of_getElem? hk')).1
    exact ⟨_, _, hk', List.getElem?_eq_getElem this⟩
  refine ⟨κ, ⟨?_, ?_, ?_, ?_, ?_, ?_⟩⟩
  · intro k hk
    obtain ⟨i, e, h1, -⟩ := hex k hk
    rw [hs]
    exact (List.getElem?_eq_some_iff.1 (hκ k i h1)).1
  · intro k hk l hl hkl
    obtain ⟨i, e, h1, -⟩ := hex k hk
    obtain ⟨j, e', h2, -⟩ := hex l hl
    have a := hκ k i h1
    have b := hκ l j h2
    rw [hkl, b] at a
    cases a
    obtain ⟨c1, c2⟩ := List.getElem?_eq_some_iff.1 h1
    obtain ⟨d1, d2⟩ := List.getElem?_eq_some_iff.1 h2
    exact (hnd'.getElem_inj_iff).1 (c2.trans d2.symm)
  · have he := hI.elems
    have he' := hI'.elems
    have hm : (without x N).mesh = x.mesh := rfl
    rw [hm, without_elements] at he'
    cases e1 : st.elems <;> cases e2 : st'.elems <;> simp only [e1, e2] at he he' ⊢
    · intro k hk
      obtain ⟨i, e, h1, -⟩ := hex k (by unfold SolverState.size; rw [e2]; exact hk)
      rw [List.getD_eq_getElem?_getD, List.getD_eq_getElem?_getD, he'.2.2.2 k i h1, he.2.2.2 _ i (hκ k i h1)]
    · rw [he.1] at he'; exact absurd he'.1 (by simp)
    · rw [he.1] at he'; exact absurd he'.1 (by simp)
    · intro k hk
      obtain ⟨i, e, h1, -⟩ := hex k (by unfold SolverState.size; rw [e2]; exact hk)
      rw [List.getD_eq_getElem?_getD, List.getD_eq_getElem?_getD, he'.2.2.2 k i h1, he.2.2.2 _ i (hκ k i h1)]
  · intro k hk
    obtain ⟨i, e, h1, h2⟩ := hex k hk
    obtain ⟨n, hd⟩ := exists_decides ((hI'.mem i).1 (List.mem_of_getElem? h1)).2
    obtain ⟨hn, hd0⟩ := (without_decides hv hA).1 hd
    obtain ⟨_, _, _, _, _, ⟨tv, c1, c2⟩, _⟩ := id hd0
    have c1' : (without x N).types.get n = some tv := by rw [without_get, if_neg hn]; exact c1
    obtain ⟨d1, d2⟩ := hI.arrays _ _ n tv e (hκ k i h1) h2 hd0 c1
    obtain ⟨d1', d2'⟩ := hI'.arrays _ _ n tv e h1 h2 hd c1'
    exact ⟨_, _, d1', d2', d1, d2⟩
  · intro k hk hr
    rw [hs] at hk
    have hk' : idx[k]? = some idx[k] := List.getElem?_eq_getElem hk
    obtain ⟨hi, hexc⟩ := (hI.mem _).1 (List.mem_of_getElem? hk')
    obtain ⟨n, hd⟩ := exists_decides hexc
    obtain ⟨_, _, _, _, _, ⟨tv, c1, c2⟩, _⟩ := id hd
    have hn : n ∈ N := by
      by_contra hn
      have hd' := (without_decides hv hA).2 ⟨hn, hd⟩
      have hmem := (hI'.mem _).2 ⟨hi, excited_of_decides (x := without x N) hv hd'⟩
      obtain ⟨j, hj, hji⟩ := List.getElem_of_mem hmem
      have h1 : idx'[j]? = some idx[k] := by rw [List.getElem?_eq_getElem hj, hji]
      have := hκ j _ h1
      obtain ⟨c1, c2⟩ := List.getElem?_eq_some_iff.1 this
      exact hr j (by rw [hs']; exact hj) ((hnd.getElem_inj_iff).1 c2)
    obtain ⟨d1, d2⟩ := hI.arrays _ _ n tv _ hk' (List.getElem?_eq_getElem hi) hd c1
    rcases (hN n hn tv c1).1 with rfl | rfl
    · exact ⟨Or.inl d1, d2⟩
    · exact ⟨Or.inr d1, d2⟩
  · have a := hI.coils
    have b := hI'.coils
    cases s with
    | electrostatic => exact b.trans a.symm
    | magnetostatic =>
      simp only at a b
      rw [hco, a] at b
      exact (Option.some.inj b).symm

theorem without_proper (hN : UnitMaterials x N) (s : Statics) : Proper (without x N) s ↔ Proper x s := by
  constructor
  · intro h n tv h1 h2
    by_cases hn : n ∈ N
    · exact (hN n hn tv h1).2
    · exact h n tv (by rw [without_get, if_neg hn]; exact h1) h2
  · intro h n tv h1 h2
    rw [without_get] at h1
    split at h1
    · cases h1
    · exact h n tv h1 h2

theorem without_numeric (hN : UnitMaterials x N) (s : Statics) : Numeric (without x N) s ↔ Numeric x s := by
  constructor
  · intro h n tv h1 h2
    by_cases hn : n ∈ N
    · rcases (hN n hn tv h1).1 with rfl | rfl <;> simp
    · exact h n tv (by rw [without_get, if_neg hn]; exact h1) h2
  · intro h n tv h1 h2
    rw [without_get] at h1
    split at h1
    · cases h1
    · exact h n tv h1 h2

/-- For meshes of the right kind it only depends on this whether the constructor of the solver returns. -/
theorem solverInit_shaped {x : Excitation ℝ V3} (hv : Valid x.mesh) (hn : x.types.keys.Nodup) (hs : Shaped x) (s : Statics) :
    (∃ st, x.solverInit s = some st) ↔ Proper x s ∧ Numeric x s ∧ (s = .magnetostatic → ∃ c, x.currentCharges = some c) := by
  constructor
  · rintro ⟨st, hst⟩
    obtain ⟨idx, hI⟩ := solverInit_spec hv hn hst
    refine ⟨hI.proper, hI.numeric, ?_⟩
    rintro rfl
    exact ⟨_, hI.coils⟩
  · rintro ⟨h1, h2, h3⟩
    rcases hs with ⟨r, hy, hl⟩ | ⟨r, ⟨p, hp, hp0⟩, hl, hc⟩
    · have h2d : x.mesh.is2d realThirds = true := by
        unfold Mesh.is2d
        rw [List.all_eq_true]
        intro p hp
        simpa [realThirds] using hy p hp
      have hho : x.mesh.isHigherOrder = true := by simp [Mesh.isHigherOrder, hl]
      by_cases hm : s = .magnetostatic
      · obtain ⟨c, hc⟩ := h3 hm
        exact solverInit_radial hv hn r h2d hho (c := c) (fun _ => hc) h1 h2
      · exact solverInit_radial hv hn r h2d hho (c := .empty3d) (fun h => absurd h hm) h1 h2
    · have h2d : x.mesh.is2d realThirds = false := by
        unfold Mesh.is2d
        rw [List.all_eq_false]
        exact ⟨p, hp, by simpa [realThirds] using hp0⟩
      exact solverInit_returns hv hn r h2d (by simp [Mesh.isHigherOrder, hl]) hc h1 h2

end

/-- What the two problems return for one kind. -/
theorem solveStatics_without {x : Excitation ℝ V3} {N : List String} {env env' : SolveEnv} (hv : Valid x.mesh) (hn : x.types.keys.Nodup) (hs : Shaped x) (hN : UnitMaterials x N)
    (hA : Apart x N) (he : FaithfulEnv env x) (he' : FaithfulEnv env' (without x N)) (hE : EnoughLines env x) (hE' : EnoughLines env' (without x N)) (s : Statics) :
    ((∃ f, x.solveStatics env s = some f) ↔ ∃ f', (without x N).solveStatics env' s = some f') ∧
    ∀ f f', x.solveStatics env s = some f → (without x N).solveStatics env' s = some f' →
      (∃ c e e', SameSources e e' ∧ f = toFieldRadial s c e ∧ f' = toFieldRadial s c e') ∨ ∃ e e', SameSources e e' ∧ f = toField3d s e ∧ f' = toField3d s e' := by
  have hv' : Valid (without x N).mesh := hv
  have hn' := without_keys (N := N) hn
  have hs' : Shaped (without x N) := by
    unfold Shaped
    rw [(without_electro hN hn).2.2]
    exact hs
  have hco := without_coils hN hn
  have hinit : (∃ st, x.solverInit s = some st) ↔ ∃ st, (without x N).solverInit s = some st := by
    rw [solverInit_shaped hv hn hs, solverInit_shaped hv' hn' hs', without_proper hN, without_numeric hN, hco]
  have key : ∀ st st', x.solverInit s = some st → (without x N).solverInit s = some st' → ∃ κ, Dropped st st' κ ∧ MatrixReady st env s ∧ MatrixReady st' env' s := by
    intro st st' h h'
    obtain ⟨idx, hI⟩ := solverInit_spec hv hn h
    obtain ⟨idx', hI'⟩ := solverInit_spec hv' hn' h'
    obtain ⟨κ, hκ⟩ := dropped_of_init hv hN hA hI hI' hco
    exact ⟨κ, hκ, (matrixReady hv hn he hE h).1, (matrixReady hv' hn' he' hE' h').1⟩
  unfold solveStatics
  cases h : x.solverInit s with
  | none =>
    have : (without x N).solverInit s = none := by
      cases h' : (without x N).solverInit s with
      | none => rfl
      | some st' =>
        obtain ⟨st, hst⟩ := hinit.2 ⟨st', h'⟩
        rw [h] at hst; cases hst
    rw [this]
    simp
  | some st =>
    obtain ⟨st', h'⟩ := hinit.1 ⟨st, h⟩
    rw [h']
    simp only [Option.bind_eq_bind, Option.bind_some]
    obtain ⟨κ, d, m, m'⟩ := key st st' h h'
    obtain ⟨a, b⟩ := d.solve m m'
    refine ⟨a, fun f f' hf hf' => ?_⟩
    rcases b f f' hf hf' with ⟨e, e', c1, c2, c3⟩ | c
    · exact Or.inl ⟨_, e, e', c1, c2, c3⟩
    · exact Or.inr c

end Traceon
