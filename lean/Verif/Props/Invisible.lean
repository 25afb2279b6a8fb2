import Verif.Props.Rigid5
import Verif.Props.Similar7
import Verif.Props.GroupCharge
import Verif.Spec.Invisible

/-!
# C88: materials with relative permittivity or permeability one are invisible
-/
namespace Traceon
open Spec Excitation

/-! ## Linear algebra -/

/-- Dropping equations `-q i = 0` from a linear system. -/
theorem linSolve_drop {n n' : Nat} {κ : Fin n' → Fin n} (hκ : Function.Injective κ) {A : Matrix (Fin n) (Fin n) ℝ} {A' : Matrix (Fin n') (Fin n') ℝ} {F F' : List ℝ}
    (hA' : ∀ i j, A' i j = A (κ i) (κ j)) (hA : ∀ i, i ∉ Set.range κ → ∀ j, A i j = if i = j then -1 else 0) (hF : ∀ i : Fin n, i ∉ Set.range κ → F.getD i 0 = 0)
    (hF' : ∀ i : Fin n', F'.getD i 0 = F.getD (κ i) 0) :
    ((∃ q, linSolve A F = some q) ↔ ∃ q', linSolve A' F' = some q') ∧
    ∀ q q', linSolve A F = some q → linSolve A' F' = some q' → (∀ i : Fin n', q'.getD i 0 = q.getD (κ i) 0) ∧ ∀ i : Fin n, i ∉ Set.range κ → q.getD i 0 = 0 := by
  have hsome : ∀ {m : Nat} (A : Matrix (Fin m) (Fin m) ℝ) (F : List ℝ), (∃ q, linSolve A F = some q) ↔ A.det ≠ 0 := by
    intro m A F
    unfold linSolve
    split <;> simp_all
  have hinj : ∀ {m : Nat} (A : Matrix (Fin m) (Fin m) ℝ), A.det ≠ 0 ↔ ∀ v : Fin m → ℝ, A.mulVec v = 0 → v = 0 := by
    intro m A
    constructor
    · intro h v hv
      have hu : IsUnit A := (Matrix.isUnit_iff_isUnit_det A).2 (isUnit_iff_ne_zero.2 h)
      exact Matrix.mulVec_injective_of_isUnit hu (by rw [hv, Matrix.mulVec_zero])
    · intro h h0
      obtain ⟨v, hv, hv0⟩ := Matrix.exists_mulVec_eq_zero_iff.2 h0
      exact hv (h v hv0)
  have hout : ∀ (w : Fin n → ℝ) (i : Fin n), i ∉ Set.range κ → A.mulVec w i = -w i := by
    intro w i hi
    show ∑ j, A i j * w j = _
    rw [Finset.sum_eq_single i]
    · rw [hA i hi, if_pos rfl]; ring
    · intro j _ hj
      rw [hA i hi, if_neg (Ne.symm hj), zero_mul]
    · simp
  have hin : ∀ (w : Fin n → ℝ), (∀ i, i ∉ Set.range κ → w i = 0) → ∀ i, A.mulVec w (κ i) = A'.mulVec (fun j => w (κ j)) i := by
    intro w hw i
    show ∑ j, A (κ i) j * w j = ∑ j, A' i j * w (κ j)
    symm
    refine Fintype.sum_of_injective κ hκ _ _ ?_ ?_
    · intro j hj; rw [hw j hj, mul_zero]
    · intro j; rw [hA']
  have hdet : A.det ≠ 0 ↔ A'.det ≠ 0 := by
    rw [hinj, hinj]
    constructor
    · intro h v hv
      classical
      let w : Fin n → ℝ := fun i => if hi : i ∈ Set.range κ then v hi.choose else 0
      have hwκ : ∀ j, w (κ j) = v j := by
        intro j
        have hj : κ j ∈ Set.range κ := ⟨j, rfl⟩
        simp only [w, dif_pos hj]
        congr 1
        exact hκ hj.choose_spec
      have hw0 : ∀ i, i ∉ Set.range κ → w i = 0 := fun i hi => by simp only [w, dif_neg hi]
      have : w = 0 := by
        apply h
        funext i
        by_cases hi : i ∈ Set.range κ
        · obtain ⟨j, rfl⟩ := hi
          rw [hin w hw0]
          simp only [hwκ]
          exact congrFun hv j
        · rw [hout w i hi, hw0 i hi]; simp
      funext j
      rw [← hwκ, this]; rfl
    · intro h w hw
      have hw0 : ∀ i, i ∉ Set.range κ → w i = 0 := by
        intro i hi
        have := congrFun hw i
        rw [hout w i hi] at this
        simpa using this
      have : (fun j => w (κ j)) = 0 := by
        apply h
        funext i
        rw [← hin w hw0, hw]; rfl
      funext i
      by_cases hi : i ∈ Set.range κ
      · obtain ⟨j, rfl⟩ := hi; exact congrFun this j
      · exact hw0 i hi
  refine ⟨by rw [hsome, hsome, hdet], fun q q' h h' => ?_⟩
  have e1 : ∀ i, A.mulVec (fun j => q.getD j 0) i = F.getD i 0 := linSolve_spec h
  have e2 : ∀ i, A'.mulVec (fun j => q'.getD j 0) i = F'.getD i 0 := linSolve_spec h'
  have hq0 : ∀ i : Fin n, i ∉ Set.range κ → q.getD i 0 = 0 := by
    intro i hi
    have := e1 i
    rw [hout _ i hi, hF i hi] at this
    simpa using this
  refine ⟨?_, hq0⟩
  have hA0 : A'.det ≠ 0 := (hsome A' F').1 ⟨_, h'⟩
  have : (fun j : Fin n' => q'.getD j 0 - q.getD (κ j) 0) = 0 := by
    apply (hinj A').1 hA0
    have : (fun j : Fin n' => q'.getD j 0 - q.getD (κ j) 0) = (fun j : Fin n' => q'.getD j 0) - fun j => q.getD (κ j) 0 := rfl
    rw [this, Matrix.mulVec_sub]
    funext i
    rw [Pi.sub_apply, e2, hF', ← hin (fun j => q.getD j 0) hq0 i, e1]
    simp
  intro i
  have := congrFun this i
  simp only [Pi.zero_apply] at this
  linarith

/-! ## Two solvers, one of which has additional elements that do nothing -/

/-- The solver `st'` is the solver `st` without some elements, which are all made of a material that is none. Element `k` of `st'` is element `κ k` of `st`. -/
structure Dropped (st st' : SolverState) (κ : Nat → Nat) : Prop where
  lt : ∀ k < st'.size, κ k < st.size
  inj : ∀ k < st'.size, ∀ l < st'.size, κ k = κ l → k = l
  elems : match st.elems, st'.elems with
    | .lines ls, .lines ls' => ∀ k < ls'.length, ls'.getD k ⟨0, 0, 0, 0⟩ = ls.getD (κ k) ⟨0, 0, 0, 0⟩
    | .tris ts, .tris ts' => ∀ k < ts'.length, ts'.getD k ⟨0, 0, 0⟩ = ts.getD (κ k) ⟨0, 0, 0⟩
    | _, _ => False
  arrays : ∀ k < st'.size, ∃ ty v, st'.types[k]? = some (some ty) ∧ st'.values[k]? = some v ∧ st.types[κ k]? = some (some ty) ∧ st.values[κ k]? = some v
  rest : ∀ k < st.size, (∀ j < st'.size, κ j ≠ k) → (st.types[k]? = some (some .dielectric) ∨ st.types[k]? = some (some .magnetizable)) ∧ st.values[k]? = some 1
  coils : st'.coils = st.coils

theorem factor_one : fluxDensityToChargeFactor 1 = 0 := by unfold fluxDensityToChargeFactor; norm_num

section
variable {st st' : SolverState} {κ : Nat → Nat} {s : Statics}

theorem Dropped.rhs (h : Dropped st st' κ) {k : Nat} (hk : k < st'.size) : (st'.rhs s).getD k 0 = (st.rhs s).getD (κ k) 0 := by
  obtain ⟨ty, v, a1, a2, a3, a4⟩ := h.arrays k hk
  cases s with
  | electrostatic => rw [rhs_electro a1 a2, rhs_electro a3 a4]
  | magnetostatic =>
    rw [rhs_magneto a1 a2, rhs_magneto a3 a4]
    have hf : ∀ μ, st'.fluxTerm k μ = st.fluxTerm (κ k) μ := by
      intro μ
      have hlt := h.lt k hk
      have he := h.elems
      unfold SolverState.fluxTerm
      cases e1 : st.elems <;> cases e2 : st'.elems <;> simp only [e1, e2] at he ⊢
      all_goals
        rw [SolverState.size, e2] at hk
        rw [SolverState.size, e1] at hlt
        have := he k hk
        simp only [List.getD_eq_getElem?_getD, List.getElem?_eq_getElem hk, List.getElem?_eq_getElem hlt, Option.getD_some] at this ⊢
        rw [this, h.coils]
    cases ty <;> simp [rhsMagnetic, hf]

theorem Dropped.rhs_rest (h : Dropped st st' κ) {k : Nat} (hk : k < st.size) (hr : ∀ j < st'.size, κ j ≠ k) : (st.rhs s).getD k 0 = 0 := by
  obtain ⟨h1, h2⟩ := h.rest k hk hr
  have hf : st.fluxTerm k 1 = 0 := by
    unfold SolverState.fluxTerm
    cases st.elems <;> simp only <;> split <;> first | rfl | simp [fluxTermRadial, fluxTerm3d, factor_one]
  cases s with
  | electrostatic => rcases h1 with h1 | h1 <;> rw [rhs_electro h1 h2] <;> rfl
  | magnetostatic => rcases h1 with h1 | h1 <;> rw [rhs_magneto h1 h2] <;> simp [rhsMagnetic, hf]

theorem entryRadial_one {l : Nat → Line4} {types : Nat → Option ExcType} {values : Nat → ℝ} {i j : Nat} (h : types i = some .dielectric ∨ types i = some .magnetizable) (h1 : values i = 1) :
    entryRadial l types values i j = if i = j then -1 else 0 := by
  unfold entryRadial
  split
  · have key : diagRadial l types values i = (∫ α in (-1 : ℝ)..1, selfFieldDotNormalRadial α (l i) (values i)) - 1 := by
      unfold diagRadial
      rcases h with h | h <;> rw [h]
    rw [key, h1]
    have : ∀ α, selfFieldDotNormalRadial α (l i) 1 = 0 := by
      intro α
      simp [selfFieldDotNormalRadial, fieldDotNormalRadial, factor_one]
    simp [this]
  · rw [entryRadial_flux h, h1, factor_one, zero_mul]

theorem entry3d_one {o : TriRoutines} {t : Nat → Tri3} {types : Nat → Option ExcType} {values : Nat → ℝ} {i j : Nat} (h : types i = some .dielectric ∨ types i = some .magnetizable)
    (h1 : values i = 1) : (fillOps3d o t types values i j).foldl EntryOp.apply 0 = if i = j then -1 else 0 := by
  have hz : ∀ l : List (ℝ × V3), (l.map fun k => EntryOp.add (0 * k.1 * fieldDotNormal3d (triTarget (t i)) k.2 (normal3d (t i).v0 (t i).v1 (t i).v2))).foldl EntryOp.apply 0 = 0 := by
    intro l
    rw [foldl_add_ops_map, zero_add]
    simp
  unfold fillOps3d
  rcases h with h | h <;> rw [h] <;> simp only [h1, factor_one] <;> (split_ifs with c1 c2 <;> first | (simp [EntryOp.apply]; done) | exact hz _)

/-- The matrices of the two solvers. -/
theorem Dropped.matrix (h : Dropped st st' κ) {env env' : SolveEnv} (hM : MatrixReady st env s) (hM' : MatrixReady st' env' s) (h0 : st.size ≠ 0) :
    ∃ A, st.matrix env s = some A ∧ (∀ k < st.size, (∀ j < st'.size, κ j ≠ k) → ∀ j < st.size, A k j = if k = j then -1 else 0) ∧
      (st'.size ≠ 0 → ∃ A', st'.matrix env' s = some A' ∧ ∀ i < st'.size, ∀ j < st'.size, A' i j = A (κ i) (κ j)) := by
  have he := h.elems
  have hty : ∀ k < st'.size, (st'.types[k]?).join = (st.types[κ k]?).join := by
    intro k hk
    obtain ⟨ty, v, a1, a2, a3, a4⟩ := h.arrays k hk
    rw [a1, a3]
  have hva : ∀ k < st'.size, st'.values.getD k 0 = st.values.getD (κ k) 0 := by
    intro k hk
    obtain ⟨ty, v, a1, a2, a3, a4⟩ := h.arrays k hk
    rw [List.getD_eq_getElem?_getD, List.getD_eq_getElem?_getD, a2, a4]
  have hrest : ∀ k < st.size, (∀ j < st'.size, κ j ≠ k) → ((st.types[k]?).join = some .dielectric ∨ (st.types[k]?).join = some .magnetizable) ∧ st.values.getD k 0 = 1 := by
    intro k hk hr
    obtain ⟨h1, h2⟩ := h.rest k hk hr
    refine ⟨?_, by rw [List.getD_eq_getElem?_getD, h2]; rfl⟩
    rcases h1 with h1 | h1 <;> rw [h1] <;> simp
  cases e1 : st.elems with
  | lines ls =>
    cases e2 : st'.elems with
    | tris ts => rw [e1, e2] at he; exact he.elim
    | lines ls' =>
      rw [e1, e2] at he
      simp only at he
      have hs : st.size = ls.length := by unfold SolverState.size; rw [e1]
      have hs' : st'.size = ls'.length := by unfold SolverState.size; rw [e2]
      obtain ⟨A, hA, hp⟩ := matrix_lines e1 hM (by rintro rfl; rw [hs] at h0; exact h0 rfl)
      refine ⟨A, hA, fun k hk hr j hj => ?_, fun h0' => ?_⟩
      · obtain ⟨r1, r2⟩ := hrest k hk hr
        rw [hs] at hk hj
        rw [hp k j hk hj]
        exact entryRadial_one r1 r2
      · obtain ⟨A', hA', hp'⟩ := matrix_lines e2 hM' (by rintro rfl; rw [hs'] at h0'; exact h0' rfl)
        refine ⟨A', hA', fun i hi j hj => ?_⟩
        have hki := h.lt i hi
        have hkj := h.lt j hj
        have hij : κ i = κ j ↔ i = j := ⟨h.inj i hi j hj, fun h => by rw [h]⟩
        rw [hp' i j (hs' ▸ hi) (hs' ▸ hj), hp _ _ (hs ▸ hki) (hs ▸ hkj)]
        unfold entryRadial diagRadial fillOpsRadial
        simp only [hij, hty i hi, hva i hi, he i (hs' ▸ hi), he j (hs' ▸ hj)]
  | tris ts =>
    cases e2 : st'.elems with
    | lines ts => rw [e1, e2] at he; exact he.elim
    | tris ts' =>
      rw [e1, e2] at he
      simp only at he
      have hs : st.size = ts.length := by unfold SolverState.size; rw [e1]
      have hs' : st'.size = ts'.length := by unfold SolverState.size; rw [e2]
      obtain ⟨hT, hr⟩ := hM
      obtain ⟨hT', hr'⟩ := hM'
      rw [e1] at hr
      rw [e2] at hr'
      simp only at hr hr'
      obtain ⟨T, hTT⟩ := Int.eq_ofNat_of_zero_le hT.le
      obtain ⟨T', hTT'⟩ := Int.eq_ofNat_of_zero_le hT'.le
      rw [hTT] at hr hT
      rw [hTT'] at hr' hT'
      obtain ⟨A, hA, hp⟩ := C36_threeD _ T (by simpa using hT) _ (fun _ => 0) (env.sched s) hr.2
      obtain ⟨A', hA', hp'⟩ := C36_threeD _ T' (by simpa using hT') _ (fun _ => 0) (env'.sched s) hr'.2
      refine ⟨A, ?_, fun k hk hr j hj => ?_, fun h0' => ⟨A', ?_, fun i hi j hj => ?_⟩⟩
      · unfold SolverState.matrix; rw [e1, hTT]; exact hA
      · obtain ⟨r1, r2⟩ := hrest k hk hr
        rw [hs] at hk hj
        rw [hp k j hk hj]
        exact entry3d_one r1 r2
      · unfold SolverState.matrix; rw [e2, hTT']; exact hA'
      · have hki := h.lt i hi
        have hkj := h.lt j hj
        rw [hp' i j (hs' ▸ hi) (hs' ▸ hj), hp _ _ (hs ▸ hki) (hs ▸ hkj)]
        have := fillOps3d_move RigidMotion.id (e := κ) (n := ts'.length) (n' := ts.length) (o := env'.routines) (o' := env.routines) (t := (ts'.getD · ⟨0, 0, 0⟩)) (t' := (ts.getD · ⟨0, 0, 0⟩))
          (ty := fun i => (st'.types[i]?).join) (ty' := fun i => (st.types[i]?).join) (v := (st'.values.getD · 0)) (v' := (st.values.getD · 0))
          (fun k hk => hs ▸ h.lt k (hs' ▸ hk)) (fun k hk l hl => h.inj k (hs' ▸ hk) l (hs' ▸ hl)) ?_ (fun k hk => (hty k (hs' ▸ hk)).symm) (fun k hk => (hva k (hs' ▸ hk)).symm)
          hr'.1 hr.1 (Or.inl rfl) (hs' ▸ hi) (hs' ▸ hj)
        · rw [this]
        · intro k hk
          beta_reduce
          rw [← he k hk]
          simp [RigidMotion.tri, RigidMotion.id_move]

/-- The charges of the two solvers. -/
theorem Dropped.charges (h : Dropped st st' κ) {env env' : SolveEnv} (hM : MatrixReady st env s) (hM' : MatrixReady st' env' s) :
    ((∃ q, st.charges env s = some q) ↔ ∃ q', st'.charges env' s = some q') ∧
    ∀ q q', st.charges env s = some q → st'.charges env' s = some q' → q.length = st.size ∧ q'.length = st'.size ∧
      (∀ k < st'.size, q'.getD k 0 = q.getD (κ k) 0) ∧ ∀ k < st.size, (∀ j < st'.size, κ j ≠ k) → q.getD k 0 = 0 := by
  by_cases h0 : st.size = 0
  · have h0' : st'.size = 0 := by
      by_contra hne
      have := h.lt 0 (by omega)
      omega
    unfold SolverState.charges
    rw [if_pos h0, if_pos h0']
    refine ⟨⟨fun _ => ⟨_, rfl⟩, fun _ => ⟨_, rfl⟩⟩, ?_⟩
    intro q q' hq hq'
    cases hq; cases hq'
    exact ⟨h0.symm, h0'.symm, fun k hk => absurd hk (by omega), fun k hk => absurd hk (by omega)⟩
  · obtain ⟨A, hA, hr, hA'⟩ := h.matrix hM hM' h0
    let κ' : Fin st'.size → Fin st.size := fun k => ⟨κ k, h.lt k k.2⟩
    have hκ : Function.Injective κ' := fun k l hkl => Fin.ext (h.inj k k.2 l l.2 (congrArg Fin.val hkl))
    have hrange : ∀ i : Fin st.size, i ∉ Set.range κ' ↔ ∀ j < st'.size, κ j ≠ i := by
      intro i
      constructor
      · intro hi j hj hji
        exact hi ⟨⟨j, hj⟩, Fin.ext hji⟩
      · rintro hi ⟨j, rfl⟩
        exact hi j j.2 rfl
    have key := linSolve_drop hκ (A := Matrix.of fun i j : Fin st.size => A i j) (A' := Matrix.of fun i j : Fin st'.size => A (κ i) (κ j)) (F := st.rhs s) (F' := st'.rhs s)
      (fun i j => rfl) (fun i hi j => by rw [Matrix.of_apply, hr i i.2 ((hrange i).1 hi) j j.2]; simp [Fin.ext_iff]) (fun i hi => h.rhs_rest i.2 ((hrange i).1 hi)) (fun i => h.rhs i.2)
    have hst : st.charges env s = linSolve (Matrix.of fun i j : Fin st.size => A i j) (st.rhs s) := by
      unfold SolverState.charges
      rw [if_neg h0, hA]; rfl
    have hst' : st'.charges env' s = linSolve (Matrix.of fun i j : Fin st'.size => A (κ i) (κ j)) (st'.rhs s) := by
      unfold SolverState.charges
      split
      · rename_i h0'
        generalize hm : (Matrix.of fun i j : Fin st'.size => A (κ i) (κ j)) = M
        unfold linSolve
        have : IsEmpty (Fin st'.size) := by rw [h0']; infer_instance
        rw [Matrix.det_isEmpty, if_neg one_ne_zero]
        congr 1
        symm
        rw [← List.length_eq_zero_iff]
        simp [h0']
      · rename_i h0'
        obtain ⟨A', b1, b2⟩ := hA' h0'
        rw [b1]
        simp only [Option.bind_eq_bind, Option.bind_some]
        congr 1
        ext i j
        exact b2 i i.2 j j.2
    rw [hst, hst']
    refine ⟨key.1, fun q q' hq hq' => ?_⟩
    obtain ⟨k1, k2⟩ := key.2 q q' hq hq'
    refine ⟨(linSolve_rows hq).1, ?_, fun k hk => k1 ⟨k, hk⟩, fun k hk hr => k2 ⟨k, hk⟩ ((hrange _).2 hr)⟩
    have := (linSolve_rows (A := fun i j => A (κ i) (κ j)) hq').1
    exact this

end

end Traceon
