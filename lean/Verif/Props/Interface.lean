import Verif.Lemmas.Gradient

/-!
# C42: the dielectric interface; C43: the electric field is minus the gradient of the potential
-/
namespace Traceon
open V3

/-- **C42.** `D1`, `D2`: normal flux density on both sides of the surface, with `D2 = K D1`; `D` their mean, which is what the program computes; `σ = D2 - D1` the surface charge. For every `K ≠ -1`
the factor is the one number that turns the mean into the charge; it vanishes exactly for vacuum and is `-2` for a boundary (`K = 0`), for which then `D2 = 0`. -/
theorem C42_interface (K : ℝ) (hK : K ≠ -1) :
    (∀ D1 D2 D σ : ℝ, D2 = K * D1 → D = (D1 + D2) / 2 → (σ = fluxDensityToChargeFactor K * D ↔ σ = D2 - D1)) ∧
    (∀ c : ℝ, (∀ D1 D2 D σ : ℝ, D2 = K * D1 → D = (D1 + D2) / 2 → σ = D2 - D1 → σ = c * D) → c = fluxDensityToChargeFactor K) ∧
    (fluxDensityToChargeFactor K = 0 ↔ K = 1) ∧ (fluxDensityToChargeFactor K = -2 ↔ K = 0) := by
  have h : 1 + K ≠ 0 := fun h => hK (by linarith)
  unfold fluxDensityToChargeFactor
  refine ⟨?_, ?_, ?_, ?_⟩
  · rintro D1 D2 D σ rfl rfl
    have : 2 * (K - 1) / (1 + K) * ((D1 + K * D1) / 2) = K * D1 - D1 := by field_simp
    rw [this]
  · intro c hc
    have := hc 1 K ((1 + K) / 2) (K - 1) (by ring) (by ring) (by ring)
    rw [eq_div_iff h]; linarith
  · rw [div_eq_zero_iff]
    constructor
    · rintro (h1 | h1)
      · linarith
      · exact absurd h1 h
    · rintro rfl; left; ring
  · rw [div_eq_iff h]
    constructor <;> intro h1 <;> linarith

example : fluxDensityToChargeFactor 3 = 1 := by norm_num [fluxDensityToChargeFactor]

/-! ## C43 -/

/-- The gradient of the squared distance to a fixed point. -/
theorem isGradient_dist2 (q p : V3) : Spec.IsGradient (fun p => dot (q - p) (q - p)) ((-2 : ℝ) * (q - p)) p := by
  have hx := (Spec.IsGradient.const q.x p).add ((Spec.IsGradient.x p).smul (-1))
  have hy := (Spec.IsGradient.const q.y p).add ((Spec.IsGradient.y p).smul (-1))
  have hz := (Spec.IsGradient.const q.z p).add ((Spec.IsGradient.z p).smul (-1))
  refine (((hx.mul hx).add (hy.mul hy)).add (hz.mul hz)).congr (fun r => by simp [dot]; ring) |>.eq ?_
  ext <;> simp <;> ring

/-- The kernel of a point charge. -/
theorem isGradient_potential3dPoint (q p : V3) (h : q ≠ p) :
    Spec.IsGradient (fun p => potential3dPoint p q) ⟨dx1Potential3dPoint p q, dy1Potential3dPoint p q, dz1Potential3dPoint p q⟩ p := by
  have hne : q - p ≠ 0 := fun h' => h (V3.sub_eq_zero.1 h')
  have hpos : 0 < dot (q - p) (q - p) := dot_self_pos hne
  have hs : 0 < Real.sqrt (dot (q - p) (q - p)) := Real.sqrt_pos.2 hpos
  have h1 : HasDerivAt (fun u : ℝ => 1 / (4 * Real.pi * Real.sqrt u)) (-(1 / (4 * Real.pi * (2 * Real.sqrt (dot (q - p) (q - p)) ^ 3)))) (dot (q - p) (q - p)) := by
    have h2 := ((Real.hasDerivAt_sqrt hpos.ne').const_mul (4 * Real.pi)).inv (by positivity)
    have h3 : (fun u : ℝ => 1 / (4 * Real.pi * Real.sqrt u)) = (fun u => 4 * Real.pi * Real.sqrt u)⁻¹ := by ext u; simp
    rw [h3]
    refine h2.congr_deriv ?_
    have := Real.pi_pos
    field_simp
  refine (Spec.IsGradient.comp (f := fun p => dot (q - p) (q - p)) h1 (isGradient_dist2 q p)).eq ?_
  have := Real.pi_pos
  unfold dx1Potential3dPoint dy1Potential3dPoint dz1Potential3dPoint V3.norm
  ext <;> simp <;> field_simp

/-- **C43.** For every charge distribution and every point that is not one of its quadrature points, the field is minus the gradient of the potential. -/
theorem C43_gradient (e : EffCharges V3) (p : V3) (h : ∀ row ∈ e.positions, p ∉ row) :
    Spec.IsGradient (fun q => potential3d q e) (-field3d p e) p := by
  refine (Spec.IsGradient.loop e potential3dPoint (fun q => ⟨dx1Potential3dPoint p q, dy1Potential3dPoint p q, dz1Potential3dPoint p q⟩) p ?_).eq ?_
  · intro row hr q hq
    exact isGradient_potential3dPoint q p (fun h' => h row hr (h' ▸ hq))
  · unfold field3d
    simp only [EffCharges.loopSub_loop]
    ext <;> simp

/-- **C43**, for the methods of a 3D field object: the electrostatic ones, and likewise the magnetostatic ones. -/
theorem C43_methods (f : Field3DBEM) (p : V3) :
    ((∀ row ∈ f.elec.positions, p ∉ row) → ∃ φ E, (∀ q, PyObj.electrostaticPotential q (.threeD f) = some (φ q)) ∧ PyObj.electrostaticField p (.threeD f) = some E ∧
      Spec.IsGradient φ (-E) p) ∧
    ((∀ row ∈ f.mag.positions, p ∉ row) → ∃ φ H, (∀ q, PyObj.magnetostaticPotential q (.threeD f) = some (φ q)) ∧ PyObj.magnetostaticField p (.threeD f) = some H ∧
      Spec.IsGradient φ (-H) p) :=
  ⟨fun h => ⟨_, _, fun _ => rfl, rfl, C43_gradient f.elec p h⟩, fun h => ⟨_, _, fun _ => rfl, rfl, C43_gradient f.mag p h⟩⟩

/-- Two elements and a point that is not one of their quadrature points. -/
example : ∀ row ∈ (⟨1, [2, -3], [[1], [2]], [[⟨0, 0, 0⟩], [⟨1, 0, 0⟩]]⟩ : EffCharges V3).positions, (⟨0, 1, 0⟩ : V3) ∉ row := by
  simp [V3.ext_iff]

end Traceon
