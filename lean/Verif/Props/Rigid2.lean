import Verif.Props.Rigid

/-!
# C81: rigid motions and other numberings, the solution
-/
namespace Traceon
open Spec V3 Excitation

/-! ## The matrix -/

theorem fillOps3d_move (R : RigidMotion) {n n' : Nat} {o o' : TriRoutines} {t t' : Nat → Tri3} {ty ty' : Nat → Option ExcType} {v v' : Nat → ℝ} {e : Nat → Nat}
    (he : ∀ i < n, e i < n') (hinj : ∀ i < n, ∀ j < n, e i = e j → i = j) (ht : ∀ i < n, t' (e i) = R.tri (t i)) (hty : ∀ i < n, ty' (e i) = ty i)
    (hv : ∀ i < n, v' (e i) = v i) (ho : o.Correct n t ty) (ho' : o'.Correct n' t' ty')
    (hs : R.sign = 1 ∨ ∀ i < n, ty i ≠ some .dielectric ∧ ty i ≠ some .magnetizable) {i j : Nat} (hi : i < n) (hj : j < n) :
    fillOps3d o' t' ty' v' (e i) (e j) = fillOps3d o t ty v i j := by
  have c := ho i hi j hj
  have c' := ho' (e i) (he i hi) (e j) (he j hj)
  have hij : e i = e j ↔ i = j := ⟨hinj i hi j hj, fun h => by rw [h]⟩
  have hT : triTarget (t' (e i)) = R.move (triTarget (t i)) := by rw [ht i hi, R.triTarget_tri]
  have hfar : FarTriangle (triTarget (t' (e i))) (t' (e j)) ↔ FarTriangle (triTarget (t i)) (t j) := by rw [hT, ht j hj, R.far_tri]
  have hpos : ∀ f f' : V3 → ℝ, (∀ q, f' (R.move q) = f q) → ∀ g : ℝ → ℝ → EntryOp ℝ,
      ((jacRow (t' (e j))).zip (posRow (t' (e j)))).map (fun k => g k.1 (f' k.2)) = ((jacRow (t j)).zip (posRow (t j))).map (fun k => g k.1 (f k.2)) := by
    intro f f' hf g
    rw [ht j hj, R.jacRow_tri, R.posRow_tri, List.zip_map_right, List.map_map]
    refine List.map_congr_left fun k _ => ?_
    simp [hf]
  unfold fillOps3d
  simp only [hty i hi, hv i hi]
  rw [hty i hi, hij, hfar] at c'
  have hpot : ∀ {r r'}, PotentialTriangleReturns (t j).v0 (t j).v1 (t j).v2 (triTarget (t i)) r →
      PotentialTriangleReturns (t' (e j)).v0 (t' (e j)).v1 (t' (e j)).v2 (triTarget (t' (e i))) r' → r' = r := by
    intro r r' h h'
    rw [hT, ht j hj] at h'
    exact kronrodReturns_unique (R.potentialReturns_move.1 h') h
  have hself : selfPotentialTriangle (t' (e j)).v0 (t' (e j)).v1 (t' (e j)).v2 (triTarget (t' (e i))) = selfPotentialTriangle (t j).v0 (t j).v1 (t j).v2 (triTarget (t i)) := by
    rw [hT, ht j hj]
    exact R.selfPotential_move _ _ _ _
  have hvolt : (i = j ∨ ¬FarTriangle (triTarget (t i)) (t j) → o'.pot (t' (e j)) (triTarget (t' (e i))) = o.pot (t j) (triTarget (t i))) →
      ((if e i = e j then [EntryOp.set (selfPotentialTriangle (t' (e j)).v0 (t' (e j)).v1 (t' (e j)).v2 (triTarget (t' (e i))))] else []) ++
        (open Classical in if e i ≠ e j ∧ FarTriangle (triTarget (t' (e i))) (t' (e j)) then
          ((jacRow (t' (e j))).zip (posRow (t' (e j)))).map (fun k => EntryOp.add (k.1 * potential3dPoint (triTarget (t' (e i))) k.2))
        else [EntryOp.set (o'.pot (t' (e j)) (triTarget (t' (e i))) / (4 * Real.pi))])) =
      ((if i = j then [EntryOp.set (selfPotentialTriangle (t j).v0 (t j).v1 (t j).v2 (triTarget (t i)))] else []) ++
        (open Classical in if i ≠ j ∧ FarTriangle (triTarget (t i)) (t j) then
          ((jacRow (t j)).zip (posRow (t j))).map (fun k => EntryOp.add (k.1 * potential3dPoint (triTarget (t i)) k.2))
        else [EntryOp.set (o.pot (t j) (triTarget (t i)) / (4 * Real.pi))])) := by
    intro hp
    congr 1
    · by_cases h : i = j
      · rw [if_pos (hij.2 h), if_pos h, hself]
      · rw [if_neg (mt hij.1 h), if_neg h]
    · by_cases h : i ≠ j ∧ FarTriangle (triTarget (t i)) (t j)
      · rw [if_pos h, if_pos ⟨mt hij.1 h.1, hfar.2 h.2⟩]
        refine hpos (potential3dPoint (triTarget (t i))) (potential3dPoint (triTarget (t' (e i)))) ?_ fun a b => EntryOp.add (a * b)
        intro q
        rw [hT, R.potential3dPoint_move]
      · rw [if_neg h, if_neg (by rw [ne_eq, hij, hfar]; exact h), hp (by tauto)]
  have hint : (ty i = some .dielectric ∨ ty i = some .magnetizable) →
      (i ≠ j → ¬FarTriangle (triTarget (t i)) (t j) → o'.flux (t' (e j)) (triTarget (t' (e i))) (normal3d (t' (e i)).v0 (t' (e i)).v1 (t' (e i)).v2) =
        o.flux (t j) (triTarget (t i)) (normal3d (t i).v0 (t i).v1 (t i).v2)) →
      (open Classical in if e i = e j then [EntryOp.set (-1 : ℝ)]
      else if FarTriangle (triTarget (t' (e i))) (t' (e j)) then
        ((jacRow (t' (e j))).zip (posRow (t' (e j)))).map (fun k => EntryOp.add (fluxDensityToChargeFactor (v i) * k.1 *
          fieldDotNormal3d (triTarget (t' (e i))) k.2 (normal3d (t' (e i)).v0 (t' (e i)).v1 (t' (e i)).v2)))
      else [EntryOp.set (fluxDensityToChargeFactor (v i) * o'.flux (t' (e j)) (triTarget (t' (e i))) (normal3d (t' (e i)).v0 (t' (e i)).v1 (t' (e i)).v2) / (4 * Real.pi))]) =
      (open Classical in if i = j then [EntryOp.set (-1)]
      else if FarTriangle (triTarget (t i)) (t j) then
        ((jacRow (t j)).zip (posRow (t j))).map (fun k => EntryOp.add (fluxDensityToChargeFactor (v i) * k.1 *
          fieldDotNormal3d (triTarget (t i)) k.2 (normal3d (t i).v0 (t i).v1 (t i).v2)))
      else [EntryOp.set (fluxDensityToChargeFactor (v i) * o.flux (t j) (triTarget (t i)) (normal3d (t i).v0 (t i).v1 (t i).v2) / (4 * Real.pi))]) := by
    intro hk hp
    have h1 : R.sign = 1 := by
      rcases hs with h | h
      · exact h
      · have := h i hi; tauto
    by_cases h : i = j
    · rw [if_pos (hij.2 h), if_pos h]
    · rw [if_neg (mt hij.1 h), if_neg h]
      by_cases hf : FarTriangle (triTarget (t i)) (t j)
      · rw [if_pos hf, if_pos (hfar.2 hf)]
        refine hpos (fun q => fieldDotNormal3d (triTarget (t i)) q (normal3d (t i).v0 (t i).v1 (t i).v2))
          (fun q => fieldDotNormal3d (triTarget (t' (e i))) q (normal3d (t' (e i)).v0 (t' (e i)).v1 (t' (e i)).v2)) ?_
          fun a b => EntryOp.add (fluxDensityToChargeFactor (v i) * a * b)
        intro q
        rw [hT, ht i hi, R.normal_tri, h1]
        have : (1 : ℝ) * R.lin (normal3d (t i).v0 (t i).v1 (t i).v2) = R.lin (normal3d (t i).v0 (t i).v1 (t i).v2) := by ext <;> simp
        rw [this, R.fieldDotNormal_move]
      · rw [if_neg hf, if_neg (mt hfar.1 hf), hp h hf]
  have hflux : R.sign = 1 → ∀ {r r'}, FluxTriangleReturns (t j).v0 (t j).v1 (t j).v2 (triTarget (t i)) (normal3d (t i).v0 (t i).v1 (t i).v2) r →
      FluxTriangleReturns (t' (e j)).v0 (t' (e j)).v1 (t' (e j)).v2 (triTarget (t' (e i))) (normal3d (t' (e i)).v0 (t' (e i)).v1 (t' (e i)).v2) r' → r' = r := by
    intro h1 r r' h h'
    rw [hT, ht j hj, ht i hi, R.normal_tri] at h'
    exact kronrodReturns_unique ((R.fluxReturns_move h1).1 h') h
  cases hk : ty i with
  | none => rfl
  | some k =>
    rw [hk] at c c' hint
    have hsd : k = .dielectric ∨ k = .magnetizable → R.sign = 1 := by
      intro h
      rcases hs with h1 | h1
      · exact h1
      · have := h1 i hi
        rw [hk] at this
        rcases h with rfl | rfl <;> simp at this
    cases k with
    | voltageFixed => exact hvolt fun h => hpot (c h) (c' h)
    | voltageFun => exact hvolt fun h => hpot (c h) (c' h)
    | magnetostaticPot => exact hvolt fun h => hpot (c h) (c' h)
    | dielectric => exact hint (by simp) fun h h' => hflux (hsd (by simp)) (c (Or.inr h') h) (c' (Or.inr h') (mt hij.1 h))
    | magnetizable => exact hint (by simp) fun h h' => hflux (hsd (by simp)) (c (Or.inr h') h) (c' (Or.inr h') (mt hij.1 h))
    | current => rfl

/-! ## The linear system -/

theorem linSolve_reindex {n n' : Nat} (e : Fin n ≃ Fin n') {A : Matrix (Fin n) (Fin n) ℝ} {A' : Matrix (Fin n') (Fin n') ℝ} {F F' q : List ℝ}
    (hA : ∀ i j, A' (e i) (e j) = A i j) (hF : ∀ i : Fin n, F'.getD (e i) 0 = F.getD i 0) (h : linSolve A F = some q) :
    ∃ q', linSolve A' F' = some q' ∧ q'.length = n' ∧ ∀ i : Fin n, q'.getD (e i) 0 = q.getD i 0 := by
  have hsub : A = A'.submatrix e e := by ext i j; exact (hA i j).symm
  unfold linSolve at h ⊢
  split at h <;> rename_i hdet
  · cases h
  · have hdet' : A'.det ≠ 0 := by rwa [hsub, Matrix.det_submatrix_equiv_self] at hdet
    rw [if_neg hdet']
    refine ⟨_, rfl, by simp, fun i => ?_⟩
    cases h
    rw [List.getD_eq_getElem?_getD, List.getD_eq_getElem?_getD]
    simp only [List.getElem?_ofFn, Fin.is_lt, dif_pos, Fin.eta, Option.getD_some]
    rw [hsub, Matrix.inv_submatrix_equiv, Matrix.submatrix_mulVec_equiv]
    simp only [Function.comp]
    congr 1
    congr 1
    funext k
    have := hF (e.symm k)
    rw [Equiv.apply_symm_apply] at this
    exact this

end Traceon
