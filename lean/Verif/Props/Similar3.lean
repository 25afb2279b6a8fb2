import Verif.Props.Similar2
import Verif.Props.Rigid4
import Verif.Props.Linear4

/-!
# C86: the matrix and the right hand side of a moved radially symmetric problem
-/
namespace Traceon
open Spec Excitation V3

/-- A line was moved and possibly turned around. -/
def MovedLine (S : Similarity) (l l' : Line4) : Prop := l' = S.line l ∨ l' = (S.line l).turned

/-- What the rows of the matrix of the moved problem are multiplied with. -/
noncomputable def rowScale (S : Similarity) (t : Option ExcType) : ℝ := if t = some .dielectric ∨ t = some .magnetizable then 1 else S.scale

theorem rowScale_ne (S : Similarity) (t : Option ExcType) : rowScale S t ≠ 0 := by
  unfold rowScale
  split
  · exact one_ne_zero
  · exact S.scale_ne

theorem MovedLine.sum {S : Similarity} {l l' : Line4} (h : MovedLine S l l') {f f' : ℝ × ℝ → ℝ} {c : ℝ} (hf : ∀ q, f' (S.scale * q.1, S.scale * (S.dir * q.2) + S.shift) = c * f q) :
    lineSum l' f' = S.scale * c * lineSum l f := by
  rcases h with rfl | rfl
  · exact lineSum_move S l hf
  · rw [lineSum_reverse]; exact lineSum_move S l hf

theorem MovedLine.target {S : Similarity} {l l' : Line4} (h : MovedLine S l l') : linePos l' 0 = (S.scale * (linePos l 0).1, S.scale * (S.dir * (linePos l 0).2) + S.shift) := by
  rcases h with rfl | rfl
  · exact S.pos_line l 0
  · rw [pos_reverse, neg_zero]; exact S.pos_line l 0

theorem self_line (S : Similarity) (l : Line4) (α : ℝ) : selfPotentialRadial α (S.line l) = S.scale * selfPotentialRadial α l := by
  unfold selfPotentialRadial
  simp only
  rw [S.pos_line, S.pos_line, S.jac_line]
  simp only
  have := S.ring_potential ellipkm1 (linePos l 0).1 (linePos l 0).2 (linePos l α).1 (linePos l α).2
  unfold potentialRadialRing
  rw [this]
  ring

theorem self_reverse (l : Line4) (α : ℝ) : selfPotentialRadial α l.turned = selfPotentialRadial (-α) l := by
  unfold selfPotentialRadial
  simp only
  rw [pos_reverse, pos_reverse, jac_reverse, neg_zero]

theorem MovedLine.self {S : Similarity} {l l' : Line4} (h : MovedLine S l l') :
    ∫ α in (-1 : ℝ)..1, selfPotentialRadial α l' = S.scale * ∫ α in (-1 : ℝ)..1, selfPotentialRadial α l := by
  have key : ∫ α in (-1 : ℝ)..1, selfPotentialRadial α (S.line l) = S.scale * ∫ α in (-1 : ℝ)..1, selfPotentialRadial α l := by
    simp only [self_line]
    rw [intervalIntegral.integral_const_mul]
  rcases h with rfl | rfl
  · exact key
  · rw [← key]
    simp only [self_reverse]
    rw [intervalIntegral.integral_comp_neg fun α => selfPotentialRadial α (S.line l), neg_neg]

theorem normal_reverse (l : Line4) : lineNormal l.turned = (-(lineNormal l).1, -(lineNormal l).2) := by
  simp only [lineNormal, curveNormal, normal2d, Line4.turned]
  have e : ∀ a b c d : ℝ, curveTan1 0 a b c d = -curveTan1 0 d c b a := by
    intro a b c d
    simp only [curveTan1]
    ring
  rw [e l.l1.x, e l.l1.z]
  generalize curveTan1 0 l.l0.x l.l2.x l.l3.x l.l1.x = a
  generalize curveTan1 0 l.l0.z l.l2.z l.l3.z l.l1.z = b
  simp only [sub_zero, neg_mul_neg, neg_div]

/-! A line with a normal. -/
section
variable {S : Similarity} {l l' : Line4}

theorem side_moved (h : S.side l l') : MovedLine S l l' := h.elim (fun h => .inl h.2) fun h => .inr h.2

theorem side_normal (h : S.side l l') : lineNormal l' = ((lineNormal l).1, S.dir * (lineNormal l).2) := by
  rcases h with ⟨h, rfl⟩ | ⟨h, rfl⟩
  · rw [S.normal_line, h]; simp
  · rw [normal_reverse, S.normal_line, h]; simp

theorem side_pos (h : S.side l l') (α : ℝ) : linePos l' α = (S.scale * (linePos l (S.dir * α)).1, S.scale * (S.dir * (linePos l (S.dir * α)).2) + S.shift) := by
  rcases h with ⟨h, rfl⟩ | ⟨h, rfl⟩
  · rw [S.pos_line, h]; simp
  · rw [pos_reverse, S.pos_line, h]; simp

theorem side_jac (h : S.side l l') (α : ℝ) : lineJac l' α = S.scale * lineJac l (S.dir * α) := by
  rcases h with ⟨h, rfl⟩ | ⟨h, rfl⟩
  · rw [S.jac_line, h]; simp
  · rw [jac_reverse, S.jac_line, h]; simp

theorem side_centre (h : S.side l l') : lineCentre l' = S.move (lineCentre l) := by
  unfold lineCentre
  rw [side_pos h, mul_zero]
  ext <;> simp [Similarity.move]

theorem _root_.Traceon.Spec.Similarity.integral_dir (S : Similarity) (f : ℝ → ℝ) : ∫ α in (-1 : ℝ)..1, f (S.dir * α) = ∫ α in (-1 : ℝ)..1, f α := by
  rcases S.dir_eq with h | h <;> rw [h]
  · simp
  · simp only [neg_mul, one_mul]
    rw [intervalIntegral.integral_comp_neg f, neg_neg]
end

theorem fieldDot_move (S : Similarity) {r0 : ℝ} (h : S.KeepsAxis r0) (z0 r z K : ℝ) (n : ℝ × ℝ) :
    fieldDotNormalRadial (S.scale * r0) (S.scale * (S.dir * z0) + S.shift) (S.scale * r) (S.scale * (S.dir * z) + S.shift) (n.1, S.dir * n.2) K = 1 / S.scale * fieldDotNormalRadial r0 z0 r z n K := by
  unfold fieldDotNormalRadial dr1PotentialRadialRing dz1PotentialRadialRing
  simp only
  rw [S.ring_dr1 _ _ h, S.ring_dz1]
  rcases S.dir_eq with h | h <;> rw [h] <;> ring

/-- The entry `(i, j)` of the matrix. -/
noncomputable def entryRadial (l : Nat → Line4) (types : Nat → Option ExcType) (values : Nat → ℝ) (i j : Nat) : ℝ :=
  if i = j then diagRadial l types values i else (fillOpsRadial l types values i j).foldl EntryOp.apply 0

theorem entry_move {S : Similarity} {l l' : Nat → Line4} {types types' : Nat → Option ExcType} {values values' : Nat → ℝ} {i j i' j' : Nat} (hij : i' = j' ↔ i = j)
    (hi : MovedLine S (l i) (l' i')) (hj : MovedLine S (l j) (l' j')) (ht : types' i' = types i) (hval : values' i' = values i)
    (hm : types i = some .dielectric ∨ types i = some .magnetizable → S.side (l i) (l' i') ∧ S.KeepsAxis (linePos (l i) 0).1) :
    entryRadial l' types' values' i' j' = rowScale S (types i) * entryRadial l types values i j := by
  have hk := S.scale_ne
  by_cases hd : types i = some .dielectric ∨ types i = some .magnetizable
  · obtain ⟨h1, h2⟩ := hm hd
    have hd' : types' i' = some .dielectric ∨ types' i' = some .magnetizable := by rw [ht]; exact hd
    unfold rowScale
    rw [if_pos hd, one_mul]
    unfold entryRadial
    by_cases he : i = j
    · rw [if_pos he, if_pos (hij.2 he)]
      have key : ∀ (l : Nat → Line4) (types : Nat → Option ExcType) (values : Nat → ℝ) i, types i = some .dielectric ∨ types i = some .magnetizable →
          diagRadial l types values i = (∫ α in (-1 : ℝ)..1, selfFieldDotNormalRadial α (l i) (values i)) - 1 := by
        intro l types values i h
        unfold diagRadial
        rcases h with h | h <;> rw [h]
      rw [key _ _ _ _ hd, key _ _ _ _ hd', hval]
      congr 1
      rw [← S.integral_dir fun α => selfFieldDotNormalRadial α (l i) (values i)]
      refine intervalIntegral.integral_congr fun α _ => ?_
      unfold selfFieldDotNormalRadial
      simp only
      rw [side_pos h1, side_pos h1, side_jac h1, side_normal h1, mul_zero]
      simp only
      rw [fieldDot_move S h2]
      field_simp
    · rw [if_neg he, if_neg (mt hij.1 he)]
      have key : ∀ (l : Nat → Line4) (types : Nat → Option ExcType) (values : Nat → ℝ) i j, types i = some .dielectric ∨ types i = some .magnetizable →
          (fillOpsRadial l types values i j).foldl EntryOp.apply 0 =
            lineSum (l j) fun q => fieldDotNormalRadial (linePos (l i) 0).1 (linePos (l i) 0).2 q.1 q.2 (lineNormal (l i)) (values i) := by
        intro l types values i j h
        unfold fillOpsRadial lineSum
        rcases h with h | h <;> rw [h] <;> simp only <;> rw [foldl_add_ops_map, zero_add]
      rw [key _ _ _ _ _ hd, key _ _ _ _ _ hd', hval,
        hj.sum (f := fun q => fieldDotNormalRadial (linePos (l i) 0).1 (linePos (l i) 0).2 q.1 q.2 (lineNormal (l i)) (values i)) (c := 1 / S.scale)]
      · field_simp
      · intro q
        rw [side_pos h1, side_normal h1, mul_zero]
        exact fieldDot_move S h2 _ _ _ _ _
  · have hd' : ¬(types' i' = some .dielectric ∨ types' i' = some .magnetizable) := by rw [ht]; exact hd
    unfold rowScale
    rw [if_neg hd]
    unfold entryRadial
    by_cases he : i = j
    · rw [if_pos he, if_pos (hij.2 he)]
      have key : ∀ (l : Nat → Line4) (types : Nat → Option ExcType) (values : Nat → ℝ) i, ¬(types i = some .dielectric ∨ types i = some .magnetizable) →
          diagRadial l types values i = ∫ α in (-1 : ℝ)..1, selfPotentialRadial α (l i) := by
        intro l types values i h
        unfold diagRadial
        split
        · rename_i h'; exact absurd (Or.inl h') h
        · rename_i h'; exact absurd (Or.inr h') h
        · rfl
      rw [key _ _ _ _ hd, key _ _ _ _ hd', hi.self]
    · rw [if_neg he, if_neg (mt hij.1 he)]
      by_cases hv : types i = some .voltageFixed ∨ types i = some .voltageFun ∨ types i = some .magnetostaticPot
      · have hv' : types' i' = some .voltageFixed ∨ types' i' = some .voltageFun ∨ types' i' = some .magnetostaticPot := by rw [ht]; exact hv
        rw [entryRadial_voltage hv, entryRadial_voltage hv']
        show lineSum (l' j') (fun q => potentialRadialRing (linePos (l' i') 0).1 (linePos (l' i') 0).2 q.1 q.2) =
          S.scale * lineSum (l j) fun q => potentialRadialRing (linePos (l i) 0).1 (linePos (l i) 0).2 q.1 q.2
        rw [hj.sum (f := fun q => potentialRadialRing (linePos (l i) 0).1 (linePos (l i) 0).2 q.1 q.2) (c := 1), mul_one]
        intro q
        rw [hi.target, one_mul]
        exact S.ring_potential _ _ _ _ _
      · have key : ∀ (l : Nat → Line4) (types : Nat → Option ExcType) (values : Nat → ℝ) i j, ¬(types i = some .dielectric ∨ types i = some .magnetizable) →
            ¬(types i = some .voltageFixed ∨ types i = some .voltageFun ∨ types i = some .magnetostaticPot) → fillOpsRadial l types values i j = [] := by
          intro l types values i j h1 h2
          unfold fillOpsRadial
          cases h : types i with
          | none => rfl
          | some t => cases t <;> simp_all
        rw [key _ _ _ _ _ hd hv, key _ _ _ _ _ hd' (by rw [ht]; exact hv)]
        simp

/-- The solution of a system whose rows are multiplied with numbers, and whose right hand side with `c` in addition. -/
theorem linSolve_scaled {n n' : Nat} (e : Fin n ≃ Fin n') {A : Matrix (Fin n) (Fin n) ℝ} {A' : Matrix (Fin n') (Fin n') ℝ} {F F' q : List ℝ} {d : Fin n → ℝ} {c : ℝ}
    (hd : ∀ i, d i ≠ 0) (hA : ∀ i j, A' (e i) (e j) = d i * A i j) (hF : ∀ i : Fin n, F'.getD (e i) 0 = d i * (c * F.getD i 0)) (h : linSolve A F = some q) :
    ∃ q', linSolve A' F' = some q' ∧ q'.length = n' ∧ ∀ i : Fin n, q'.getD (e i) 0 = c * q.getD i 0 := by
  have hA1 : A'.submatrix e e = Matrix.diagonal d * A := by ext i j; rw [Matrix.diagonal_mul]; exact hA i j
  have hdet : A.det ≠ 0 := by
    intro h0
    unfold linSolve at h
    rw [if_pos h0] at h
    cases h
  have hdet' : A'.det ≠ 0 := by
    rw [← Matrix.det_submatrix_equiv_self e, hA1, Matrix.det_mul, Matrix.det_diagonal]
    exact mul_ne_zero (Finset.prod_ne_zero_iff.2 fun i _ => hd i) hdet
  have hsome : ∃ q', linSolve A' F' = some q' ∧ q'.length = n' := by
    unfold linSolve
    rw [if_neg hdet']
    exact ⟨_, rfl, by simp⟩
  obtain ⟨q', h1, h2⟩ := hsome
  refine ⟨q', h1, h2, ?_⟩
  have e1 : ∀ i, ∑ j : Fin n, A i j * q.getD j 0 = F.getD i 0 := linSolve_spec h
  have e2 : ∀ i, ∑ j : Fin n, A i j * q'.getD (e j) 0 = c * F.getD i 0 := by
    intro i
    have := linSolve_spec h1 (e i)
    rw [hF, ← e.sum_comp] at this
    simp only [hA, mul_assoc] at this
    rw [← Finset.mul_sum] at this
    exact mul_left_cancel₀ (hd i) this
  have hu : IsUnit A := (Matrix.isUnit_iff_isUnit_det A).2 (isUnit_iff_ne_zero.2 hdet)
  have : (fun j : Fin n => q'.getD (e j) 0) = fun j : Fin n => c * q.getD j 0 := by
    apply Matrix.mulVec_injective_of_isUnit hu
    funext i
    show ∑ j, A i j * q'.getD (e j) 0 = ∑ j, A i j * (c * q.getD j 0)
    rw [e2, ← e1, Finset.mul_sum]
    refine Finset.sum_congr rfl fun j _ => ?_
    ring
  exact fun i => congrFun this i

/-- The right hand side for a magnetizable line. -/
theorem fluxTerm_move {S : Similarity} {e : EffCharges V3} (he : ∀ row ∈ e.positions, ∀ q ∈ row, S.KeepsAxis q.x) {l l' : Line4} (hs : S.side l l') (h : S.KeepsAxis (linePos l 0).1) (μ : ℝ) :
    fluxTermRadial (S.coils e) l' μ = 1 / S.scale * fluxTermRadial e l μ := by
  have hn : S.KeepsAxis (norm2d (lineCentre l).x (lineCentre l).y) := by
    have : norm2d (lineCentre l).x (lineCentre l).y = |(linePos l 0).1| := by
      unfold norm2d lineCentre
      simp only
      rw [mul_zero, add_zero, ← sq, Real.sqrt_sq_eq_abs]
    rw [this]
    exact ⟨h.2, by rw [abs_abs]; exact h.2⟩
  unfold fluxTermRadial
  simp only
  rw [side_centre hs, side_normal hs, S.currentField_move he hn]
  simp only [Similarity.vec]
  rcases S.dir_eq with h | h <;> rw [h] <;> ring

end Traceon
