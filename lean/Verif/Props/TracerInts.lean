import Verif.Props.Tracer3

/-!
# C48: what integer bounds do
-/
namespace Traceon
open Spec

/-- **C48**, what happens to bounds given as integers in radial symmetry (the C code reads the bytes of the integers as floating point numbers). If a bound in x or y is negative, there is no force anywhere. If none is,
the bounds act as if they were multiplied with `2^-1074`, so there is no force at any point outside of the tiny square `0 < x, y < 2^-1022`. -/
theorem C48_integers_partial (f : FieldRadialBEM) (b : (Int × Int) × (Int × Int) × (Int × Int)) :
    ((-2 ^ 51 ≤ b.1.1 ∧ b.1.1 < 0 ∨ -2 ^ 51 ≤ b.1.2 ∧ b.1.2 < 0 ∨ -2 ^ 51 ≤ b.2.1.1 ∧ b.2.1.1 < 0 ∨ -2 ^ 51 ≤ b.2.1.2 ∧ b.2.1.2 < 0) → ∀ p, tracerRadialForce f (some (.ints b)) p = 0) ∧
    ((0 ≤ b.1.1 ∧ b.1.1 < 2 ^ 52) → (0 ≤ b.1.2 ∧ b.1.2 < 2 ^ 52) → (0 ≤ b.2.1.1 ∧ b.2.1.1 < 2 ^ 52) → (0 ≤ b.2.1.2 ∧ b.2.1.2 < 2 ^ 52) →
      (∀ p, tracerRadialForce f (some (.ints b)) p =
        tracerRadialForce f (some (.floats ((b.1.1 * 2 ^ (-1074 : ℤ), b.1.2 * 2 ^ (-1074 : ℤ)), (b.2.1.1 * 2 ^ (-1074 : ℤ), b.2.1.2 * 2 ^ (-1074 : ℤ)), (0, 0)))) p) ∧
      ∀ p : Phase, (p.pos.x ∉ Set.Ioo (0 : ℝ) (2 ^ (-1022 : ℤ)) ∨ p.pos.y ∉ Set.Ioo (0 : ℝ) (2 ^ (-1022 : ℤ))) → tracerRadialForce f (some (.ints b)) p = 0) := by
  have hneg : ∀ i : Int, i < 0 → reinterpretInt i = none := fun i h => by unfold reinterpretInt; rw [if_neg (by omega)]
  have hpos : ∀ i : Int, 0 ≤ i ∧ i < 2 ^ 52 → reinterpretInt i = some ((i : ℝ) * 2 ^ (-1074 : ℤ)) := fun i h => by unfold reinterpretInt; rw [if_pos h]
  have hl : ∀ a, ¬cLt none a := by rintro a ⟨x, y, h, -⟩; cases h
  have hr : ∀ a, ¬cLt a none := by rintro a ⟨x, y, -, h, -⟩; cases h
  refine ⟨fun h p => ?_, fun h1 h2 h3 h4 => ?_⟩
  · unfold tracerRadialForce fieldRadialTraceable UserBounds.toC
    rw [if_neg]
    intro hc
    obtain ⟨⟨c1, c2⟩, c3, c4⟩ := hc _ rfl
    simp only at c1 c2 c3 c4
    rcases h with h | h | h | h
    · rw [hneg _ h.2] at c1; exact hl _ c1
    · rw [hneg _ h.2] at c2; exact hr _ c2
    · rw [hneg _ h.2] at c3; exact hl _ c3
    · rw [hneg _ h.2] at c4; exact hr _ c4
  · have key : ∀ p, tracerRadialForce f (some (.ints b)) p =
        tracerRadialForce f (some (.floats ((b.1.1 * 2 ^ (-1074 : ℤ), b.1.2 * 2 ^ (-1074 : ℤ)), (b.2.1.1 * 2 ^ (-1074 : ℤ), b.2.1.2 * 2 ^ (-1074 : ℤ)), (0, 0)))) p := by
      intro p
      unfold tracerRadialForce fieldRadialTraceable UserBounds.toC
      simp only [Option.bind_some]
      have hiff : ∀ (P Q : Prop) (A : V3) (dP : Decidable P) (dQ : Decidable Q), (P ↔ Q) → (if P then A else 0) = (if Q then A else 0) := fun P Q A _ _ h => if_congr h rfl rfl
      refine hiff _ _ _ _ _ ⟨fun h c hc => ?_, fun h c hc => ?_⟩
      · have := h _ rfl
        simp only [hpos _ h1, hpos _ h2, hpos _ h3, hpos _ h4] at this
        cases hc
        exact this
      · have := h _ rfl
        cases hc
        simp only [hpos _ h1, hpos _ h2, hpos _ h3, hpos _ h4]
        exact this
    refine ⟨key, fun p hp => ?_⟩
    rw [key]
    refine (C48_field_bounds_partial _ p).1 f (hp.imp (mt fun h => ?_) (mt fun h => ?_))
    all_goals
      have hsmall : ∀ i : Int, 0 ≤ i ∧ i < 2 ^ 52 → 0 ≤ (i : ℝ) * 2 ^ (-1074 : ℤ) ∧ (i : ℝ) * 2 ^ (-1074 : ℤ) ≤ 2 ^ (-1022 : ℤ) := by
        intro i hi
        have h0 : (0 : ℝ) ≤ i := by exact_mod_cast hi.1
        have h52 : (i : ℝ) ≤ 2 ^ (52 : ℤ) := by
          have : (i : ℝ) ≤ ((2 ^ 52 : Int) : ℝ) := by exact_mod_cast hi.2.le
          norm_num at this ⊢
          exact this
        refine ⟨by positivity, ?_⟩
        have e : (2 : ℝ) ^ (-1022 : ℤ) = 2 ^ (52 : ℤ) * 2 ^ (-1074 : ℤ) := by rw [← zpow_add₀ (by norm_num)]; norm_num
        rw [e]
        exact mul_le_mul_of_nonneg_right h52 (by positivity)
    · exact ⟨lt_of_le_of_lt (hsmall _ h1).1 h.1, lt_of_lt_of_le h.2 (hsmall _ h2).2⟩
    · exact ⟨lt_of_le_of_lt (hsmall _ h3).1 h.1, lt_of_lt_of_le h.2 (hsmall _ h4).2⟩

/-- **C48**: with the bounds `-3 … 3` given as integers there is no force at all, with `0 … 3` none at the point `(1, 1, 1)`. -/
example (f : FieldRadialBEM) : (∀ p, tracerRadialForce f (some (.ints ((-3, 3), (-3, 3), (-3, 3)))) p = 0) ∧ tracerRadialForce f (some (.ints ((0, 3), (0, 3), (0, 3)))) ⟨⟨1, 1, 1⟩, 0⟩ = 0 := by
  refine ⟨(C48_integers_partial f _).1 (by norm_num), ((C48_integers_partial f ((0, 3), (0, 3), (0, 3))).2 (by norm_num) (by norm_num) (by norm_num) (by norm_num)).2 _ (Or.inl fun h => ?_)⟩
  have h1 : (2 : ℝ) ^ (-1022 : ℤ) ≤ 1 := by
    rw [zpow_neg]
    exact inv_le_one_of_one_le₀ (one_le_zpow₀ (by norm_num) (by norm_num))
  exact absurd h.2 (not_lt.2 (by simpa using h1))

/-- **C48**, what happens to bounds whose array is stored by columns, as that of `np.array([minima, maxima]).T` is (the C code reads the numbers in the order in which they are stored). The force is the one with
other bounds: x between the two first lower bounds, y between the lower bound of z and the upper bound of x. -/
theorem C48_columns_partial (f : FieldRadialBEM) (b : (ℝ × ℝ) × (ℝ × ℝ) × (ℝ × ℝ)) :
    (∀ p, tracerRadialForce f (some (.columns b)) p = tracerRadialForce f (some (.floats ((b.1.1, b.2.1.1), (b.2.2.1, b.1.2), (b.2.1.2, b.2.2.2)))) p) ∧
    (b.1.1 = b.2.1.1 → ∀ p, tracerRadialForce f (some (.columns b)) p = 0) := by
  have key : ∀ p, tracerRadialForce f (some (.columns b)) p = tracerRadialForce f (some (.floats ((b.1.1, b.2.1.1), (b.2.2.1, b.1.2), (b.2.1.2, b.2.2.2)))) p := fun p => rfl
  refine ⟨key, fun h p => ?_⟩
  rw [key]
  refine (C48_field_bounds_partial _ p).1 f (Or.inl ?_)
  simp [h]

/-- **C48 is false** for such bounds: there is a field and bounds within which there is no force although there is one if the same bounds are stored by rows. -/
theorem C48_columns_refuted : ∃ (f : FieldRadialBEM) (b : (ℝ × ℝ) × (ℝ × ℝ) × (ℝ × ℝ)) (p : Phase), Within b p.pos ∧
    tracerRadialForce f (some (.floats b)) p ≠ 0 ∧ tracerRadialForce f (some (.columns b)) p = 0 := by
  obtain ⟨-, -, f, -, p, hw, hne⟩ := C48_refuted
  exact ⟨f, ((-3, 3), (-3, 3), (-3, 3)), p, hw, by rw [(C48_field_bounds_partial _ p).2.1 f hw]; exact hne, (C48_columns_partial _ _).2 rfl _⟩

end Traceon
