import Verif.Props.Rigid4
import Verif.Props.Superposition
import Verif.Spec.Linear

/-!
# C84: the linear algebra of effective point charges
-/
namespace Traceon
open Spec V3 Excitation

/-- The charges of `e` are the combination of those of `e₁` and `e₂`, at the same places. -/
structure EffLin {P : Type} (a b : ℝ) (e₁ e₂ e : EffCharges P) : Prop where
  jac₁ : e₁.jacobians = e.jacobians
  jac₂ : e₂.jacobians = e.jacobians
  pos₁ : e₁.positions = e.positions
  pos₂ : e₂.positions = e.positions
  len₁ : e₁.charges.length = e.charges.length
  len₂ : e₂.charges.length = e.charges.length
  lin : ∀ k : Nat, k < e.charges.length → e.charges.getD k 0 = a * e₁.charges.getD k 0 + b * e₂.charges.getD k 0

theorem sum_zip_lin {β : Type} (a b : ℝ) (g : β → ℝ) : ∀ (c₁ c₂ c : List ℝ) (l : List β), c₁.length = c.length → c₂.length = c.length →
    (∀ k : Nat, k < c.length → c.getD k 0 = a * c₁.getD k 0 + b * c₂.getD k 0) →
    ((c.zip l).map fun x => x.1 * g x.2).sum = a * ((c₁.zip l).map fun x => x.1 * g x.2).sum + b * ((c₂.zip l).map fun x => x.1 * g x.2).sum
  | [], [], [], l, _, _, _ => by simp
  | [], _ :: _, [], _, _, h, _ => by simp at h
  | _ :: _, _, [], _, h, _, _ => by simp at h
  | [], _, _ :: _, _, h, _, _ => by simp at h
  | _ :: _, [], _ :: _, _, _, h, _ => by simp at h
  | u :: c₁, v :: c₂, w :: c, [], _, _, _ => by simp
  | u :: c₁, v :: c₂, w :: c, y :: l, h1, h2, h => by
    have h0 := h 0 (by simp)
    simp only [List.getD_cons_zero] at h0
    have ih := sum_zip_lin a b g c₁ c₂ c l (by simpa using h1) (by simpa using h2) fun k hk => by simpa using h (k + 1) (by simpa using hk)
    simp only [List.zip_cons_cons, List.map_cons, List.sum_cons, ih, h0]
    ring

theorem superpose_zip {P : Type} (f : P → ℝ) (e : EffCharges P) :
    Spec.superpose f e = ((e.charges.zip (e.jacobians.zip e.positions)).map fun x => x.1 * ((x.2.1.zip x.2.2).map fun y => y.1 * f y.2).sum).sum := by
  unfold Spec.superpose
  congr 1
  refine List.map_congr_left fun x _ => ?_
  rw [← List.sum_map_mul_left]
  congr 1
  refine List.map_congr_left fun y _ => by ring

namespace EffLin
variable {P : Type} {a b : ℝ} {e₁ e₂ e : EffCharges P}

theorem superpose (h : EffLin a b e₁ e₂ e) (f : P → ℝ) : Spec.superpose f e = a * Spec.superpose f e₁ + b * Spec.superpose f e₂ := by
  rw [superpose_zip, superpose_zip, superpose_zip, h.jac₁, h.jac₂, h.pos₁, h.pos₂]
  exact sum_zip_lin a b (fun x : List ℝ × List P => ((x.1.zip x.2).map fun y => y.1 * f y.2).sum) _ _ _ _ h.len₁ h.len₂ h.lin

theorem loop (h : EffLin a b e₁ e₂ e) (f : P → ℝ) : e.loop f = a * e₁.loop f + b * e₂.loop f := by
  simp only [EffCharges.loop_eq, h.superpose]

theorem loopSub (h : EffLin a b e₁ e₂ e) (f : P → ℝ) : e.loopSub f = a * e₁.loopSub f + b * e₂.loopSub f := by
  simp only [EffCharges.loopSub_eq, h.superpose]; ring

theorem len_eq₁ (h : EffLin a b e₁ e₂ e) : e₁.len = e.len := h.len₁
theorem len_eq₂ (h : EffLin a b e₁ e₂ e) : e₂.len = e.len := h.len₂

theorem refl_nil (hc : e.charges = []) : EffLin a b e e e := ⟨rfl, rfl, rfl, rfl, rfl, rfl, fun k hk => by simp [hc] at hk⟩
end EffLin

theorem fromRadial_comb (a b : ℝ) (p : V3) (u₁ w₁ u₂ w₂ : ℝ) :
    fromRadial p (a * u₁ + b * u₂) (a * w₁ + b * w₂) = a * fromRadial p u₁ w₁ + b * fromRadial p u₂ w₂ := by
  unfold fromRadial
  split <;> ext <;> simp <;> ring

section
variable {a b : ℝ} {e₁ e₂ e : EffCharges V3} {c₁ c₂ c : EffCharges (ℝ × ℝ)}

theorem EffLin.potential3d (h : EffLin a b e₁ e₂ e) (p : V3) : potential3d p e = a * Traceon.potential3d p e₁ + b * Traceon.potential3d p e₂ := h.loop _
theorem EffLin.field3d (h : EffLin a b e₁ e₂ e) (p : V3) : field3d p e = a * Traceon.field3d p e₁ + b * Traceon.field3d p e₂ := by
  unfold Traceon.field3d
  ext <;> simp [h.loopSub]
theorem EffLin.currentField (h : EffLin a b e₁ e₂ e) (p : V3) : currentField p e = a * Traceon.currentField p e₁ + b * Traceon.currentField p e₂ := by
  unfold Traceon.currentField
  rw [h.loop, h.loop, fromRadial_comb]
theorem EffLin.potentialRadial (h : EffLin a b c₁ c₂ c) (p : V3) : potentialRadial p c = a * Traceon.potentialRadial p c₁ + b * Traceon.potentialRadial p c₂ := h.loop _
theorem EffLin.fieldRadial (h : EffLin a b c₁ c₂ c) (p : V3) : fieldRadial p c = a * Traceon.fieldRadial p c₁ + b * Traceon.fieldRadial p c₂ := by
  unfold Traceon.fieldRadial
  rw [h.loopSub, h.loopSub, fromRadial_comb]
end

/-! ## Combinations of excitations -/

theorem Spec.ExcCombination.kinds {a b : ℝ} {t₁ t₂ t : ExcType × ExcVal ℝ V3} (h : ExcCombination a b t₁ t₂ t) : t₁.1 = t.1 ∧ t₂.1 = t.1 := by
  obtain ⟨k₁, v₁⟩ := t₁
  obtain ⟨k₂, v₂⟩ := t₂
  obtain ⟨k, v⟩ := t
  cases k₁ <;> cases k₂ <;> cases k <;> cases v₁ <;> cases v₂ <;> cases v <;> first | exact h.elim | exact ⟨rfl, rfl⟩

/-- Values of the same kind. -/
def ValLin (a b : ℝ) : ExcType → ℝ → ℝ → ℝ → Prop
  | .dielectric, u, v, w => w = u ∧ w = v
  | .magnetizable, u, v, w => w = u ∧ w = v
  | _, u, v, w => w = a * u + b * v

/-- The number that is stored for an element with the centre `c`. -/
noncomputable def valueOf (c : V3) : ExcVal ℝ V3 → ℝ
  | .num v => v
  | .fn f => f c
  | .other => 0

theorem Spec.ExcCombination.valLin {a b : ℝ} {t₁ t₂ t : ExcType × ExcVal ℝ V3} (h : ExcCombination a b t₁ t₂ t) (c : V3) :
    ValLin a b t.1 (valueOf c t₁.2) (valueOf c t₂.2) (valueOf c t.2) := by
  obtain ⟨k₁, v₁⟩ := t₁
  obtain ⟨k₂, v₂⟩ := t₂
  obtain ⟨k, v⟩ := t
  cases k₁ <;> cases k₂ <;> cases k <;> cases v₁ <;> cases v₂ <;> cases v <;> first | exact h.elim | exact h | exact h c

theorem Spec.ExcCombination.numeric {a b : ℝ} {t₁ t₂ t : ExcType × ExcVal ℝ V3} (h : ExcCombination a b t₁ t₂ t) :
    (t.1 = .voltageFun → ∃ f, t.2 = .fn f) ∧ (t.1 ≠ .voltageFun → ∃ v, t.2 = .num v) := by
  obtain ⟨k₁, v₁⟩ := t₁
  obtain ⟨k₂, v₂⟩ := t₂
  obtain ⟨k, v⟩ := t
  cases k₁ <;> cases k₂ <;> cases k <;> cases v₁ <;> cases v₂ <;> cases v <;> first | exact h.elim | exact ⟨by simp, by simp⟩

theorem Dict.get_isSome_keys {α β : Type} {d : Dict α} {d' : Dict β} (h : d.keys = d'.keys) {n : String} {v : β} (hn : d'.get n = some v) : ∃ u, d.get n = some u := by
  have hm : n ∈ d.keys := by rw [h]; exact List.mem_map.2 ⟨_, Dict.mem_of_get hn, rfl⟩
  cases hg : d.get n with
  | some u => exact ⟨u, rfl⟩
  | none => exact absurd hm (Dict.get_none_iff.1 hg)

namespace Spec.Combination
variable {a b : ℝ} {x₁ x₂ x : Excitation ℝ V3}

theorem get (h : Combination a b x₁ x₂ x) {n : String} {t : ExcType × ExcVal ℝ V3} (hn : x.types.get n = some t) :
    ∃ t₁ t₂, x₁.types.get n = some t₁ ∧ x₂.types.get n = some t₂ ∧ ExcCombination a b t₁ t₂ t := by
  obtain ⟨t₁, h1⟩ := Dict.get_isSome_keys h.names₁ hn
  obtain ⟨t₂, h2⟩ := Dict.get_isSome_keys h.names₂ hn
  exact ⟨t₁, t₂, h1, h2, h.values n t₁ t₂ t h1 h2 hn⟩

theorem get_none (h : Combination a b x₁ x₂ x) {n : String} (hn : x.types.get n = none) : x₁.types.get n = none ∧ x₂.types.get n = none := by
  rw [Dict.get_none_iff] at hn
  constructor
  · rw [Dict.get_none_iff, h.names₁]; exact hn
  · rw [Dict.get_none_iff, h.names₂]; exact hn

theorem sameKinds₁ (h : Combination a b x₁ x₂ x) : SameKinds x₁ x := by
  refine ⟨h.mesh₁.symm, h.symmetry₁.symm, fun n => ?_⟩
  cases hn : x.types.get n with
  | none => rw [(h.get_none hn).1]
  | some t =>
    obtain ⟨t₁, t₂, h1, h2, h3⟩ := h.get hn
    rw [h1, Option.map_some, Option.map_some, h3.kinds.1]

theorem sameKinds₂ (h : Combination a b x₁ x₂ x) : SameKinds x₂ x := by
  refine ⟨h.mesh₂.symm, h.symmetry₂.symm, fun n => ?_⟩
  cases hn : x.types.get n with
  | none => rw [(h.get_none hn).2]
  | some t =>
    obtain ⟨t₁, t₂, h1, h2, h3⟩ := h.get hn
    rw [h2, Option.map_some, Option.map_some, h3.kinds.2]

theorem numeric (h : Combination a b x₁ x₂ x) (s : Statics) : Numeric x s := by
  intro n tv hn _
  obtain ⟨_, _, _, _, h3⟩ := h.get hn
  exact h3.numeric

end Spec.Combination

end Traceon
