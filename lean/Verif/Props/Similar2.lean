import Verif.Props.Similar

/-!
# C86: coils under a motion along the axis and a change of the unit of length
-/
namespace Traceon
open Spec Excitation V3

namespace Spec.Similarity
variable (S : Similarity)

theorem area_tri (t : Tri3) : triArea (S.tri t) = S.scale ^ 2 * triArea t := by
  unfold triArea
  have e : ∀ a b c : ℝ, Real.sqrt ((S.scale ^ 2 * a) ^ 2 + (S.scale ^ 2 * b) ^ 2 + (S.scale ^ 2 * c) ^ 2) = S.scale ^ 2 * Real.sqrt (a ^ 2 + b ^ 2 + c ^ 2) := by
    intro a b c
    rw [show (S.scale ^ 2 * a) ^ 2 + (S.scale ^ 2 * b) ^ 2 + (S.scale ^ 2 * c) ^ 2 = (S.scale ^ 2) ^ 2 * (a ^ 2 + b ^ 2 + c ^ 2) by ring,
      Real.sqrt_mul (sq_nonneg _), Real.sqrt_sq (by positivity)]
  rw [mul_left_comm, ← e]
  congr 2
  simp only [tri, move]
  rcases S.dir_eq with h | h <;> rw [h] <;> ring

theorem jacRow_tri (t : Tri3) : jacRow (S.tri t) = (jacRow t).map (S.scale ^ 2 * ·) := by
  unfold jacRow
  rw [List.map_map, area_tri]
  refine List.map_congr_left fun q _ => ?_
  simp only [Function.comp]; ring

theorem posRow_tri (t : Tri3) : posRow (S.tri t) = (posRow t).map S.move := by
  unfold posRow
  rw [List.map_map]
  refine List.map_congr_left fun q _ => ?_
  simp only [Function.comp, tri, move]
  ext <;> simp only <;> ring

/-- The moved charges that represent coils. -/
noncomputable def coils (e : EffCharges V3) : EffCharges V3 :=
  ⟨e.nquad, e.charges.map (S.dir * · / S.scale ^ 2), e.jacobians.map (List.map (S.scale ^ 2 * ·)), e.positions.map (List.map S.move)⟩

theorem superpose_coils (e : EffCharges V3) {f f' : V3 → ℝ} {c : ℝ} (h : ∀ row ∈ e.positions, ∀ q ∈ row, f' (S.move q) = c * f q) :
    superpose f' (S.coils e) = S.dir * c * superpose f e := by
  have hk : S.scale ^ 2 ≠ 0 := pow_ne_zero 2 S.scale_ne
  unfold superpose coils
  simp only
  rw [← List.sum_map_mul_left, List.zip_map, List.zip_map, List.map_map]
  congr 1
  refine List.map_congr_left fun x hx => ?_
  simp only [Function.comp, Prod.map]
  rw [List.zip_map, List.map_map, ← List.sum_map_mul_left]
  congr 1
  refine List.map_congr_left fun y hy => ?_
  simp only [Function.comp, Prod.map]
  have h1 : x.2.2 ∈ e.positions := (List.of_mem_zip (List.of_mem_zip hx).2).2
  rw [h _ h1 _ (List.of_mem_zip hy).2]
  have hk' := S.scale_ne
  field_simp

theorem fromRadial_move {p : V3} (h : S.KeepsAxis (norm2d p.x p.y)) (er ez : ℝ) :
    fromRadial (S.move p) (er / S.scale) (S.dir * ez / S.scale) = S.vec (fromRadial p er ez) := by
  have hk := S.scale_ne
  unfold fromRadial
  rw [norm2d_move]
  by_cases hr : norm2d p.x p.y < minDistanceAxis
  · rw [if_neg (not_le.2 (h.iff.2 hr)), if_neg (not_le.2 hr)]
    ext <;> simp [vec]
  · rw [if_pos (not_lt.1 (mt h.iff.1 hr)), if_pos (not_lt.1 hr)]
    simp only [move, mul_div_mul_left _ _ hk]
    ext <;> simp [vec] <;> ring

theorem currentField_move {e : EffCharges V3} (he : ∀ row ∈ e.positions, ∀ q ∈ row, S.KeepsAxis q.x) {p : V3} (h : S.KeepsAxis (norm2d p.x p.y)) :
    currentField (S.move p) (S.coils e) = S.vec (currentField p e) := by
  unfold currentField
  rw [← S.fromRadial_move h]
  rw [EffCharges.loop_eq, EffCharges.loop_eq, EffCharges.loop_eq, EffCharges.loop_eq, norm2d_move]
  have key : ∀ row ∈ e.positions, ∀ q ∈ row, currentFieldRadialRing (S.scale * norm2d p.x p.y) (S.move p).z (S.move q).x (S.move q).z =
      (S.dir * ((currentFieldRadialRing (norm2d p.x p.y) p.z q.x q.z).1 / S.scale), (currentFieldRadialRing (norm2d p.x p.y) p.z q.x q.z).2 / S.scale) := fun row hr q hq =>
    S.ring_current ellipk ellipe h (he row hr q hq) p.z q.z
  rw [S.superpose_coils e (f := fun q => (currentFieldRadialRing (norm2d p.x p.y) p.z q.x q.z).1) (c := S.dir / S.scale) fun row hr q hq => by rw [key row hr q hq]; ring,
    S.superpose_coils e (f := fun q => (currentFieldRadialRing (norm2d p.x p.y) p.z q.x q.z).2) (c := 1 / S.scale) fun row hr q hq => by rw [key row hr q hq]; ring]
  congr 1
  · rw [mul_div_assoc', S.dir_mul]; ring
  · ring

end Spec.Similarity

theorem gather_mapped {α β : Type} (f : α → β) (arr : List α) (idx : List Nat) : gather (arr.map f) idx = (gather arr idx).map (List.map f) := by
  unfold gather
  induction idx with
  | nil => simp
  | cons i l ih =>
    rw [List.mapM_cons, List.mapM_cons, ih, List.getElem?_map]
    cases arr[i]? with
    | none => rfl
    | some a =>
      cases l.mapM fun i => arr[i]? with
      | none => rfl
      | some b => rfl

/-- The state of the loop over the coils, moved. -/
noncomputable def Spec.Similarity.coilState (S : Similarity) (s : List ℝ × List (List ℝ) × List (List V3)) : List ℝ × List (List ℝ) × List (List V3) :=
  (s.1.map (S.dir * · / S.scale ^ 2), s.2.1.map (List.map (S.scale ^ 2 * ·)), s.2.2.map (List.map S.move))

theorem currentStep_move (S : Similarity) {x x' : Excitation ℝ V3} (hg : x'.mesh.physTris = x.mesh.physTris) (jac : List (List ℝ)) (pos : List (List V3))
    (s : List ℝ × List (List ℝ) × List (List V3)) (nv : String × ExcType × ExcVal ℝ V3) :
    x'.currentStep (jac.map (List.map (S.scale ^ 2 * ·))) (pos.map (List.map S.move)) (S.coilState s) (nv.1, nv.2.1, S.current nv.2.2) = (x.currentStep jac pos s nv).map S.coilState := by
  unfold currentStep
  rw [hg]
  split
  · cases x.mesh.physTris.get nv.1 with
    | none => rfl
    | some indices =>
      simp only [Option.bind_eq_bind, Option.bind_some]
      by_cases h0 : indices = []
      · rw [if_pos h0, if_pos h0]; rfl
      · rw [if_neg h0, if_neg h0, gather_mapped, gather_mapped]
        cases gather jac indices with
        | none => rfl
        | some j =>
          cases gather pos indices with
          | none => rfl
          | some p =>
            simp only [Option.map_some, Option.bind_some]
            have harea : ((j.map (List.map (S.scale ^ 2 * ·))).map List.sum).sum = S.scale ^ 2 * (j.map List.sum).sum := by
              rw [List.map_map, ← List.sum_map_mul_left]
              congr 1
              refine List.map_congr_left fun r _ => ?_
              simp only [Function.comp]
              rw [List.sum_map_mul_left]
              simp
            cases nv.2.2 with
            | num v =>
              simp only [Option.pure_def, Option.map_some, Similarity.current, Similarity.coilState, List.map_append, List.map_replicate, harea]
              rw [mul_comm (S.scale ^ 2), ← div_div, mul_div_assoc]
            | fn f => rfl
            | other => rfl
  · rfl

theorem currentFold_filter (x : Excitation ℝ V3) (jac : List (List ℝ)) (pos : List (List V3)) : ∀ (l : Dict (ExcType × ExcVal ℝ V3)) (s : List ℝ × List (List ℝ) × List (List V3)),
    l.foldlM (x.currentStep jac pos) s = (l.filter fun nt => nt.2.1 = .current).foldlM (x.currentStep jac pos) s
  | [], _ => rfl
  | a :: l, s => by
    rw [List.foldlM_cons, List.filter_cons]
    by_cases h : a.2.1 = .current
    · rw [if_pos (by simpa using h), List.foldlM_cons]
      congr 1
      funext s
      exact currentFold_filter x jac pos l s
    · rw [if_neg (by simpa using h), ← currentFold_filter x jac pos l s]
      have : x.currentStep jac pos s a = some s := by
        unfold currentStep
        rw [if_neg (by simp [h])]
        rfl
      rw [this]
      rfl

theorem currentFold_move (S : Similarity) {x x' : Excitation ℝ V3} (hg : x'.mesh.physTris = x.mesh.physTris) (jac : List (List ℝ)) (pos : List (List V3)) :
    ∀ (l : Dict (ExcType × ExcVal ℝ V3)) (s : List ℝ × List (List ℝ) × List (List V3)),
      (l.map fun nt => (nt.1, nt.2.1, S.current nt.2.2)).foldlM (x'.currentStep (jac.map (List.map (S.scale ^ 2 * ·))) (pos.map (List.map S.move))) (S.coilState s) = (l.foldlM (x.currentStep jac pos) s).map S.coilState
  | [], _ => rfl
  | a :: l, s => by
    rw [List.map_cons, List.foldlM_cons, List.foldlM_cons, currentStep_move S hg]
    cases x.currentStep jac pos s a with
    | none => rfl
    | some s' => exact currentFold_move S hg jac pos l s'

/-- All points in the result of the loop over the coils are points of the triangles. -/
theorem currentFold_points {x : Excitation ℝ V3} {jac : List (List ℝ)} {pos : List (List V3)} : ∀ (l : Dict (ExcType × ExcVal ℝ V3)) {s r : List ℝ × List (List ℝ) × List (List V3)},
    l.foldlM (x.currentStep jac pos) s = some r → (∀ row ∈ s.2.2, row ∈ pos) → ∀ row ∈ r.2.2, row ∈ pos
  | [], s, r, h, hs => by cases h; exact hs
  | a :: l, s, r, h, hs => by
    rw [List.foldlM_cons] at h
    cases h1 : x.currentStep jac pos s a with
    | none => rw [h1] at h; cases h
    | some s' =>
      rw [h1] at h
      refine currentFold_points l h ?_
      unfold currentStep at h1
      split at h1
      · cases h2 : x.mesh.physTris.get a.1 with
        | none => rw [h2] at h1; cases h1
        | some indices =>
          rw [h2] at h1
          simp only [Option.bind_eq_bind, Option.bind_some] at h1
          split at h1
          · cases h1; exact hs
          · cases h3 : gather jac indices with
            | none => rw [h3] at h1; cases h1
            | some j =>
              cases h4 : gather pos indices with
              | none => rw [h3, h4] at h1; cases h1
              | some p =>
                rw [h3, h4] at h1
                simp only [Option.bind_some] at h1
                cases h5 : a.2.2 with
                | num v =>
                  rw [h5] at h1
                  cases h1
                  intro row hrow
                  rcases List.mem_append.1 hrow with h6 | h6
                  · exact hs row h6
                  · obtain ⟨k, hk⟩ := List.mem_iff_getElem?.1 h6
                    rw [mapM_getElem? h4] at hk
                    obtain ⟨i, -, hi⟩ := Option.bind_eq_some_iff.1 hk
                    exact List.mem_of_getElem? hi
                | fn f => rw [h5] at h1; cases h1
                | other => rw [h5] at h1; cases h1
      · cases h1; exact hs

theorem currentCharges_move {S : Similarity} {x x' : Excitation ℝ V3} (h : SameCoils S x x') {e : EffCharges V3} (he : x.currentCharges = some e) :
    x'.currentCharges = some (S.coils e) ∧ ∀ row ∈ e.positions, ∀ q ∈ row, S.KeepsAxis q.x := by
  have hcur : x'.hasCurrent = x.hasCurrent := by
    unfold Excitation.hasCurrent
    rw [Bool.eq_iff_iff, List.any_eq_true, List.any_eq_true]
    have : ∀ l : Dict (ExcType × ExcVal ℝ V3), (∃ nv ∈ l, decide (nv.2.1 = ExcType.current) = true) ↔ l.filter (fun nt => nt.2.1 = .current) ≠ [] := by
      intro l
      rw [Ne, List.filter_eq_nil_iff]
      push Not
      rfl
    rw [this, this, h.currents, Ne, List.map_eq_nil_iff]
  have hnil : x'.mesh.triangles = [] ↔ x.mesh.triangles = [] := by
    rw [← List.length_eq_zero_iff, ← List.length_eq_zero_iff, h.number]
  have hempty : S.coils (EffCharges.empty3d : EffCharges V3) = EffCharges.empty3d := rfl
  unfold currentCharges at he ⊢
  rw [hcur]
  simp only [hnil]
  split at he <;> rename_i h0
  · cases he
    rw [if_pos h0]
    exact ⟨rfl, by simp [EffCharges.empty3d]⟩
  · rw [if_neg h0]
    cases hv : x.mesh.triangles.mapM (triVerts x.mesh.points) with
    | none => rw [hv] at he; cases he
    | some verts =>
      rw [hv] at he
      have hv' : x'.mesh.triangles.mapM (triVerts x'.mesh.points) = some (verts.map S.tri) := by
        rw [mapM_eq_some_iff]
        apply List.ext_getElem?
        intro i
        have h1 := h.triangles i
        have h2 := mapM_getElem? hv i
        rw [List.getElem?_map, List.getElem?_map, List.getElem?_map]
        rw [← h2] at h1
        have hlen : verts.length = x'.mesh.triangles.length := by rw [mapM_length hv, h.number]
        by_cases hi : i < verts.length
        · have a1 : verts[i]? = some verts[i] := by simp [hi]
          have a2 : x'.mesh.triangles[i]? = some (x'.mesh.triangles[i]'(by omega)) := by simp [hlen ▸ hi]
          rw [a1, a2] at h1
          rw [a1, a2]
          exact congrArg some h1
        · have a1 : verts[i]? = none := by simpa using hi
          have a2 : x'.mesh.triangles[i]? = none := by simp; omega
          rw [a1, a2]
          rfl
      rw [hv']
      simp only [Option.bind_eq_bind, Option.bind_some] at he ⊢
      have hj : (verts.map S.tri).map jacRow = (verts.map jacRow).map (List.map (S.scale ^ 2 * ·)) := by
        rw [List.map_map, List.map_map]; exact List.map_congr_left fun t _ => S.jacRow_tri t
      have hp : (verts.map S.tri).map posRow = (verts.map posRow).map (List.map S.move) := by
        rw [List.map_map, List.map_map]; exact List.map_congr_left fun t _ => S.posRow_tri t
      rw [hj, hp, currentFold_filter, h.currents]
      rw [currentFold_filter] at he
      have := currentFold_move S h.groups (verts.map jacRow) (verts.map posRow) (x.types.filter fun nt => nt.2.1 = .current) ([], [], [])
      rw [show S.coilState ([], [], []) = ([], [], []) from rfl] at this
      rw [this]
      cases hr : (x.types.filter fun nt => nt.2.1 = .current).foldlM (x.currentStep (verts.map jacRow) (verts.map posRow)) ([], [], []) with
      | none => rw [hr] at he; cases he
      | some r =>
        rw [hr] at he
        simp only [Option.map_some, Option.bind_some] at he ⊢
        have hpts := currentFold_points _ hr (by simp)
        have hax : ∀ row ∈ r.2.2, ∀ q ∈ row, S.KeepsAxis q.x := by
          intro row hrow q hq
          obtain ⟨t, ht, rfl⟩ := List.mem_map.1 (hpts row hrow)
          obtain ⟨i, hi⟩ := List.mem_iff_getElem?.1 ht
          rw [mapM_getElem? hv] at hi
          exact h.axis i t hi q hq
        obtain ⟨c, j, p⟩ := r
        split at he <;> rename_i hc
        · rw [if_pos (by simpa [Similarity.coilState] using hc)]
          cases he
          exact ⟨rfl, by simp [EffCharges.empty3d]⟩
        · rw [if_neg (by simpa [Similarity.coilState] using hc)]
          simp only [Similarity.coilState]
          unfold EffCharges.new at he ⊢
          split at he <;> rename_i hn
          · cases he
            refine ⟨?_, hax⟩
            rw [if_pos]
            · rfl
            · refine ⟨by simpa using hn.1, ?_, by simpa using hn.2.2.1, ?_⟩
              · intro row hrow
                obtain ⟨row', h1, rfl⟩ := List.mem_map.1 hrow
                rw [List.length_map]; exact hn.2.1 _ h1
              · intro row hrow
                obtain ⟨row', h1, rfl⟩ := List.mem_map.1 hrow
                rw [List.length_map]; exact hn.2.2.2 _ h1
          · cases he

end Traceon
