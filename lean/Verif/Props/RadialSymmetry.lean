import Verif.Props.Charges
import Mathlib.Analysis.SpecialFunctions.Trigonometric.Basic

/-!
# C58: radially symmetric fields are radially symmetric
-/
namespace Traceon

/-- Specification: rotation about the z-axis. -/
noncomputable def Spec.rotZ (θ : ℝ) (p : V3) : V3 := ⟨Real.cos θ * p.x - Real.sin θ * p.y, Real.sin θ * p.x + Real.cos θ * p.y, p.z⟩

open Spec

theorem norm2d_rotZ (θ : ℝ) (p : V3) : norm2d (rotZ θ p).x (rotZ θ p).y = norm2d p.x p.y := by
  unfold norm2d rotZ
  congr 1
  have := Real.sin_sq_add_cos_sq θ
  simp only
  linear_combination (p.x * p.x + p.y * p.y) * this

theorem rotZ_z (θ : ℝ) (p : V3) : (rotZ θ p).z = p.z := rfl

theorem rotZ_add (θ : ℝ) (p q : V3) : rotZ θ (p + q) = rotZ θ p + rotZ θ q := by
  unfold rotZ; ext <;> simp <;> ring

theorem rotZ_zero (θ : ℝ) : rotZ θ 0 = 0 := by
  unfold rotZ; ext <;> simp

theorem fromRadial_rotZ (θ : ℝ) (p : V3) (a b : ℝ) : fromRadial (rotZ θ p) a b = rotZ θ (fromRadial p a b) := by
  unfold fromRadial
  rw [norm2d_rotZ]
  split
  · unfold rotZ; ext <;> simp only <;> ring
  · unfold rotZ; ext <;> simp

theorem potentialRadial_rotZ (θ : ℝ) (p : V3) (e : EffCharges (ℝ × ℝ)) : potentialRadial (rotZ θ p) e = potentialRadial p e := by
  unfold potentialRadial; rw [norm2d_rotZ, rotZ_z]

theorem fieldRadial_rotZ (θ : ℝ) (p : V3) (e : EffCharges (ℝ × ℝ)) : fieldRadial (rotZ θ p) e = rotZ θ (fieldRadial p e) := by
  unfold fieldRadial; rw [norm2d_rotZ, rotZ_z, fromRadial_rotZ]

theorem currentField_rotZ (θ : ℝ) (p : V3) (e : EffCharges V3) : currentField (rotZ θ p) e = rotZ θ (currentField p e) := by
  unfold currentField; rw [norm2d_rotZ, rotZ_z, fromRadial_rotZ]

theorem seriesField_rotZ (θ : ℝ) (p : V3) (r : ℝ) (d : Nat → ℝ) : seriesField (rotZ θ p) r d = rotZ θ (seriesField p r d) := by
  unfold seriesField rotZ; ext <;> simp only <;> ring

theorem potentialRadialDerivs_rotZ (θ : ℝ) (p : V3) (zs : List ℝ) (c : Coeffs) : potentialRadialDerivs (rotZ θ p) zs c = potentialRadialDerivs p zs c := by
  unfold potentialRadialDerivs; rw [norm2d_rotZ, rotZ_z]

theorem fieldRadialDerivs_rotZ (θ : ℝ) (p : V3) (zs : List ℝ) (c : Coeffs) : fieldRadialDerivs (rotZ θ p) zs c = (fieldRadialDerivs p zs c).map (rotZ θ) := by
  unfold fieldRadialDerivs; rw [norm2d_rotZ, rotZ_z]
  cases axialIndex zs p.z with
  | none => simp [rotZ_zero]
  | some i =>
    simp only [Option.map_map]
    congr 1
    funext d
    exact seriesField_rotZ θ p _ d

theorem fromRadial_axis {p : V3} (hx : p.x = 0) (hy : p.y = 0) (a b : ℝ) : (fromRadial p a b).x = 0 ∧ (fromRadial p a b).y = 0 := by
  have h : norm2d p.x p.y = 0 := by simp [norm2d, hx, hy]
  unfold fromRadial
  rw [h, if_neg (by unfold minDistanceAxis; norm_num)]
  exact ⟨rfl, rfl⟩

/-- Specification: `f` is one of the radially symmetric field objects (computed from charges and currents, or a radial series around the axis). -/
def Spec.IsRadial (f : PyObj) : Prop := (∃ g, f = .radial g) ∨ ∃ g, f = .axial g

/-- **C58.** For every radially symmetric field, every point and every angle: the potentials do not change when the point is rotated about the z-axis, the fields rotate
along, and on the axis the fields point along the axis. (`none`: evaluation outside of the arrays, see C53, happens for the rotated point iff it does for the point.) -/
theorem C58_radial_symmetry (f : PyObj) (hf : IsRadial f) (p : V3) (θ : ℝ) :
    f.electrostaticPotential (rotZ θ p) = f.electrostaticPotential p ∧
    f.magnetostaticPotential (rotZ θ p) = f.magnetostaticPotential p ∧
    f.electrostaticField (rotZ θ p) = (f.electrostaticField p).map (rotZ θ) ∧
    f.magnetostaticField (rotZ θ p) = (f.magnetostaticField p).map (rotZ θ) ∧
    (p.x = 0 → p.y = 0 → ∀ E, f.electrostaticField p = some E ∨ f.magnetostaticField p = some E → E.x = 0 ∧ E.y = 0) := by
  rcases hf with ⟨g, rfl⟩ | ⟨g, rfl⟩
  · refine ⟨?_, ?_, ?_, ?_, ?_⟩
    · simp [PyObj.electrostaticPotential, potentialRadial_rotZ]
    · simp [PyObj.magnetostaticPotential, potentialRadial_rotZ]
    · simp [PyObj.electrostaticField, fieldRadial_rotZ]
    · simp [PyObj.magnetostaticField, fieldRadial_rotZ, currentField_rotZ, rotZ_add]
    · intro hx hy E hE
      simp only [PyObj.electrostaticField, PyObj.magnetostaticField, Option.some.injEq] at hE
      rcases hE with rfl | rfl
      · exact fromRadial_axis hx hy _ _
      · constructor
        · rw [V3.add_x, currentField, fieldRadial, (fromRadial_axis hx hy _ _).1, (fromRadial_axis hx hy _ _).1, add_zero]
        · rw [V3.add_y, currentField, fieldRadial, (fromRadial_axis hx hy _ _).2, (fromRadial_axis hx hy _ _).2, add_zero]
  · have axis : ∀ c E, p.x = 0 → p.y = 0 → fieldRadialDerivs p g.zs c = some E → E.x = 0 ∧ E.y = 0 := by
      intro c E hx hy hE
      unfold fieldRadialDerivs at hE
      split at hE
      · cases hE; exact ⟨rfl, rfl⟩
      · rw [Option.map_eq_some_iff] at hE
        obtain ⟨d, _, rfl⟩ := hE
        simp [seriesField, hx, hy]
    refine ⟨potentialRadialDerivs_rotZ _ _ _ _, potentialRadialDerivs_rotZ _ _ _ _, fieldRadialDerivs_rotZ _ _ _ _, fieldRadialDerivs_rotZ _ _ _ _, ?_⟩
    intro hx hy E hE
    exact hE.elim (axis _ E hx hy) (axis _ E hx hy)

/-- A ring and a point not on the axis: the field is defined at the point and turns with it. -/
example : IsRadial (.radial ⟨⟨1, [1], [[1]], [[(1, 0)]]⟩, .empty2d, .empty3d, none⟩) ∧ Spec.rotZ Real.pi ⟨1, 2, 3⟩ = ⟨-1, -2, 3⟩ := by
  refine ⟨Or.inl ⟨_, rfl⟩, ?_⟩
  unfold Spec.rotZ; ext <;> simp

end Traceon
