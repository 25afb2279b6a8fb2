import Verif.Model.Axial
import Verif.Props.Ring
import Mathlib.Analysis.Calculus.IteratedDeriv.Defs

/-!
# C51: axial derivatives are the derivatives of the axial potential
-/
namespace Traceon
open Real Spec V3

/-! ## One ring -/

/-- The squared distance between a point on the axis and the ring. -/
theorem hasDerivAt_axisSq (r z z0 : ℝ) : HasDerivAt (fun t => (t - z) * (t - z) + r * r) (2 * (z0 - z)) z0 := by
  have h := (hasDerivAt_id z0).sub_const z
  have := (h.mul h).add_const (r * r)
  refine HasDerivAt.congr_deriv this ?_
  simp only [id]; ring

theorem axisSq_pos {r : ℝ} (hr : 0 < r) (z z0 : ℝ) : 0 < (z0 - z) * (z0 - z) + r * r := by
  have := mul_pos hr hr
  nlinarith [mul_self_nonneg (z0 - z)]

theorem hasDerivAt_norm2d {r : ℝ} (hr : 0 < r) (z z0 : ℝ) : HasDerivAt (fun t => norm2d (t - z) r) ((z0 - z) / norm2d (z0 - z) r) z0 := by
  have := (hasDerivAt_axisSq r z z0).sqrt (axisSq_pos hr z z0).ne'
  unfold norm2d
  refine HasDerivAt.congr_deriv this ?_
  field_simp

theorem norm2d_pos' {r : ℝ} (hr : 0 < r) (t : ℝ) : 0 < norm2d t r := by
  unfold norm2d
  apply Real.sqrt_pos.2
  nlinarith [mul_self_nonneg t, mul_pos hr hr]

theorem norm2d_sq' (t r : ℝ) : norm2d t r ^ 2 = t * t + r * r := by
  unfold norm2d
  exact Real.sq_sqrt (add_nonneg (mul_self_nonneg t) (mul_self_nonneg r))

/-- The recurrence that `axial_derivatives_radial_ring` and `current_axial_derivatives_radial_ring` solve for the next derivative is preserved by differentiation. -/
theorem hasDerivAt_recurrence {a b c : ℝ → ℝ} {b' c' z0 R0 : ℝ} (z : ℝ) {S : ℝ → ℝ} (α β : ℝ) (hS : HasDerivAt S (2 * (z0 - z)) z0) (hS0 : S z0 ≠ 0)
    (ha : HasDerivAt a (b z0) z0) (hb : HasDerivAt b (c z0) z0) (hc : ∀ t, c t = -(α * (t - z) * b t + β * a t) / S t)
    (hR : R0 = -((α + 2) * (z0 - z) * c z0 + (α + β) * b z0) / S z0) : HasDerivAt c R0 z0 := by
  have hid : HasDerivAt (fun t : ℝ => α * (t - z)) α z0 := by
    simpa using ((hasDerivAt_id z0).sub_const z).const_mul α
  have h := (((hid.mul hb).add (ha.const_mul β)).neg).div hS hS0
  have hfun : c = fun t => -(α * (t - z) * b t + β * a t) / S t := funext hc
  rw [hfun]
  refine HasDerivAt.congr_deriv h ?_
  rw [hR]
  simp only [Pi.neg_apply, Pi.add_apply, Pi.mul_apply]
  rw [hc z0]
  field_simp
  ring

theorem hasDerivAt_ringDerivsRaw {r : ℝ} (hr : 0 < r) (z : ℝ) (n : Nat) :
    ∀ z0, HasDerivAt (fun t => ringDerivsRaw t r z n) (ringDerivsRaw z0 r z (n + 1)) z0 := by
  have hN := fun z0 => (norm2d_pos' hr (z0 - z)).ne'
  have h0 : ∀ z0, HasDerivAt (fun t => ringDerivsRaw t r z 0) (ringDerivsRaw z0 r z 1) z0 := by
    intro z0
    have := (hasDerivAt_norm2d hr z z0).inv (hN z0)
    simp only [ringDerivsRaw, one_div]
    refine HasDerivAt.congr_deriv this ?_
    have := hN z0
    field_simp
  have h1 : ∀ z0, HasDerivAt (fun t => ringDerivsRaw t r z 1) (ringDerivsRaw z0 r z 2) z0 := by
    intro z0
    have hd := (((hasDerivAt_id z0).sub_const z).neg).div ((hasDerivAt_norm2d hr z z0).pow 3) (pow_ne_zero 3 (hN z0))
    simp only [ringDerivsRaw]
    refine HasDerivAt.congr_deriv hd ?_
    have := hN z0
    simp only [Pi.neg_apply, id, Pi.pow_apply]
    push_cast
    generalize norm2d (z0 - z) r = N at *
    field_simp
    ring
  induction n using Nat.strong_induction_on with
  | _ n ih =>
    match n with
    | 0 => exact h0
    | 1 => exact h1
    | n + 2 =>
      intro z0
      refine hasDerivAt_recurrence z (a := fun t => ringDerivsRaw t r z n) (b := fun t => ringDerivsRaw t r z (n + 1)) (S := fun t => (t - z) * (t - z) + r * r)
        (b' := 0) (c' := 0) (2 * (n + 1 : ℕ) + 1) (((n + 1 : ℕ) : ℝ) ^ 2) (hasDerivAt_axisSq r z z0) (axisSq_pos hr z z0).ne' (ih n (by omega) z0) (ih (n + 1) (by omega) z0) ?_ ?_
      · intro t
        simp only [ringDerivsRaw, norm2d_sq']
        have := (axisSq_pos hr z t).ne'
        field_simp
      · conv_lhs => rw [ringDerivsRaw]
        rw [norm2d_sq']
        have := (axisSq_pos hr z z0).ne'
        push_cast
        field_simp
        ring

theorem hasDerivAt_currentRing {r : ℝ} (hr : 0 < r) (z : ℝ) (n : Nat) :
    ∀ z0, HasDerivAt (fun t => currentAxialDerivativesRadialRing t r z n) (currentAxialDerivativesRadialRing z0 r z (n + 1)) z0 := by
  have hS := fun z0 => axisSq_pos hr z z0
  have hQ := fun z0 => (Real.sqrt_pos.2 (hS z0)).ne'
  have hQ2 := fun z0 => Real.sq_sqrt (hS z0).le
  have hsq := fun z0 => (hasDerivAt_axisSq r z z0).sqrt (hS z0).ne'
  have h0 : ∀ z0, HasDerivAt (fun t => currentAxialDerivativesRadialRing t r z 0) (currentAxialDerivativesRadialRing z0 r z 1) z0 := by
    intro z0
    have hd := (((hasDerivAt_id z0).sub_const z).neg).div ((hsq z0).const_mul 2) (mul_ne_zero two_ne_zero (hQ z0))
    simp only [currentAxialDerivativesRadialRing]
    refine HasDerivAt.congr_deriv hd ?_
    have h := hQ z0
    have h2 := hQ2 z0
    have h3 := (hS z0).ne'
    simp only [Pi.neg_apply, id]
    generalize √((z0 - z) * (z0 - z) + r * r) = Q at *
    rw [← h2]
    field_simp
    linear_combination -h2
  have h1 : ∀ z0, HasDerivAt (fun t => currentAxialDerivativesRadialRing t r z 1) (currentAxialDerivativesRadialRing z0 r z 2) z0 := by
    intro z0
    have hd := ((hasDerivAt_const z0 (-r * r))).div (((hasDerivAt_axisSq r z z0).mul (hsq z0)).const_mul 2) (mul_ne_zero two_ne_zero (mul_ne_zero (hS z0).ne' (hQ z0)))
    simp only [currentAxialDerivativesRadialRing]
    refine HasDerivAt.congr_deriv hd ?_
    have h := hQ z0
    have h2 := hQ2 z0
    simp only [norm2d, Pi.mul_apply]
    push_cast
    generalize √((z0 - z) * (z0 - z) + r * r) = Q at *
    rw [← h2]
    field_simp
    ring
  induction n using Nat.strong_induction_on with
  | _ n ih =>
    match n with
    | 0 => exact h0
    | 1 => exact h1
    | n + 2 =>
      intro z0
      refine hasDerivAt_recurrence z (a := fun t => currentAxialDerivativesRadialRing t r z n) (b := fun t => currentAxialDerivativesRadialRing t r z (n + 1)) (S := fun t => (t - z) * (t - z) + r * r)
        (b' := 0) (c' := 0) (2 * (n + 2 : ℕ) - 1) (((n + 2 : ℕ) : ℝ) * (n + 2 : ℕ) - 2 * (n + 2 : ℕ)) (hasDerivAt_axisSq r z z0) (axisSq_pos hr z z0).ne' (ih n (by omega) z0) (ih (n + 1) (by omega) z0) ?_ ?_
      · intro t
        simp only [currentAxialDerivativesRadialRing]
        have := norm2d_sq' (t - z) r
        have h0 := (norm2d_pos' hr (t - z)).ne'
        rw [← this]
        field_simp
        ring
      · conv_lhs => rw [currentAxialDerivativesRadialRing]
        have := norm2d_sq' (z0 - z) r
        have h0 := (norm2d_pos' hr (z0 - z)).ne'
        rw [← this]
        push_cast
        field_simp
        ring

/-- The first number is the potential, on the axis, of a ring of unit line charge. -/
theorem ringPotential_axis {r : ℝ} (hr : 0 < r) (z z0 : ℝ) : ringPotential r z ⟨0, 0, z0⟩ = axialDerivativesRadialRing z0 r z 0 := by
  have hd : ∀ φ, V3.norm ((⟨0, 0, z0⟩ : V3) - ringPoint r z φ) = norm2d (z0 - z) r := by
    intro φ
    unfold V3.norm norm2d
    congr 1
    simp only [dot, ringPoint, sub_x, sub_y, sub_z]
    linear_combination r ^ 2 * sin_sq_add_cos_sq φ
  unfold ringPotential axialDerivativesRadialRing ringDerivsRaw
  simp only [hd, intervalIntegral.integral_const, smul_eq_mul]
  have := (norm2d_pos' hr (z0 - z)).ne'
  have := Real.pi_pos.ne'
  field_simp
  ring

/-- The second number of a current ring is minus the magnetic field on the axis according to the law of Biot and Savart. -/
theorem ringField_axis {r : ℝ} (hr : 0 < r) (z z0 : ℝ) : currentAxialDerivativesRadialRing z0 r z 1 = -(ringField r z ⟨0, 0, z0⟩).z := by
  have hd : ∀ φ, V3.norm ((⟨0, 0, z0⟩ : V3) - ringPoint r z φ) = norm2d (z0 - z) r := by
    intro φ
    unfold V3.norm norm2d
    congr 1
    simp only [dot, ringPoint, sub_x, sub_y, sub_z]
    linear_combination r ^ 2 * sin_sq_add_cos_sq φ
  have hz : ∀ φ, (biotSavart r z φ ⟨0, 0, z0⟩).z = r * r / (4 * π * norm2d (z0 - z) r ^ 3) := by
    intro φ
    unfold biotSavart
    rw [hd]
    simp only [smul_z, cross, sub_x, sub_y, ringPoint]
    have : -r * sin φ * (0 - r * sin φ) - r * cos φ * (0 - r * cos φ) = r * r := by linear_combination r ^ 2 * sin_sq_add_cos_sq φ
    rw [this]; ring
  unfold ringField
  simp only [hz, intervalIntegral.integral_const, smul_eq_mul, currentAxialDerivativesRadialRing]
  have h2 := norm2d_sq' (z0 - z) r
  have h0 := (norm2d_pos' hr (z0 - z)).ne'
  have hpi := Real.pi_pos.ne'
  rw [show √((z0 - z) * (z0 - z) + r * r) = norm2d (z0 - z) r from rfl, ← h2]
  field_simp
  ring

/-! ## Superpositions of rings -/

theorem hasDerivAt_loop {P : Type} (e : EffCharges P) (f : ℝ → P → ℝ) (g : P → ℝ) (z0 : ℝ)
    (h : ∀ row ∈ e.positions, ∀ q ∈ row, HasDerivAt (fun t => f t q) (g q) z0) : HasDerivAt (fun t => e.loop (f t)) (e.loop g) z0 := by
  simp only [EffCharges.loop_eq]
  unfold Spec.superpose
  have key : ∀ {α : Type} (l : List α) (F : ℝ → α → ℝ) (G : α → ℝ), (∀ x ∈ l, HasDerivAt (fun t => F t x) (G x) z0) →
      HasDerivAt (fun t => (l.map (F t)).sum) (l.map G).sum z0 := by
    intro α l F G hl
    induction l with
    | nil => simpa using hasDerivAt_const z0 (0 : ℝ)
    | cons x l ih =>
      simp only [List.map_cons, List.sum_cons]
      exact (hl x (by simp)).add (ih (fun y hy => hl y (by simp [hy])))
  refine key _ (fun t (x : ℝ × List ℝ × List P) => ((x.2.1.zip x.2.2).map (fun y => x.1 * y.1 * f t y.2)).sum) _ ?_
  rintro ⟨c, js, ps⟩ hx
  refine key _ (fun t (y : ℝ × P) => c * y.1 * f t y.2) _ ?_
  rintro ⟨j, q⟩ hy
  exact (h ps (List.of_mem_zip (List.of_mem_zip hx).2).2 q (List.of_mem_zip hy).2).const_mul (c * j)

/-- A sequence of functions, each the derivative of the one before, consists of the iterated derivatives of the first. -/
theorem iteratedDeriv_of_chain (D : Nat → ℝ → ℝ) (h : ∀ n z, HasDerivAt (D n) (D (n + 1) z) z) (n : Nat) : iteratedDeriv n (D 0) = D n := by
  induction n with
  | zero => exact iteratedDeriv_zero
  | succ n ih =>
    rw [iteratedDeriv_succ, ih]
    exact funext fun z => (h n z).deriv

/-- Charges: every number is the derivative of the one before. -/
theorem axial_chain (e : EffCharges (ℝ × ℝ)) (he : ∀ row ∈ e.positions, ∀ q ∈ row, 0 < q.1) (n : Nat) (z0 : ℝ) :
    HasDerivAt (fun t => axialDerivativesRadial t e n) (axialDerivativesRadial z0 e (n + 1)) z0 :=
  hasDerivAt_loop e (fun t q => axialDerivativesRadialRing t q.1 q.2 n) _ z0
    (fun row hr q hq => (hasDerivAt_ringDerivsRaw (he row hr q hq) q.2 n z0).mul_const _)

theorem current_axial_chain (c : EffCharges V3) (hc : ∀ row ∈ c.positions, ∀ q ∈ row, 0 < q.x) (n : Nat) (z0 : ℝ) :
    HasDerivAt (fun t => currentAxialDerivativesRadial t c n) (currentAxialDerivativesRadial z0 c (n + 1)) z0 :=
  hasDerivAt_loop c (fun t q => currentAxialDerivativesRadialRing t q.x q.z n) _ z0
    (fun row hr q hq => hasDerivAt_currentRing (hc row hr q hq) q.z n z0)

/-- **C51** (charges). For every distribution of charged rings (of positive radius), every position on the axis and every `n`, the `n`-th number is
the `n`-th derivative of the potential on the axis, which is the superposition of the potentials of the rings. -/
theorem C51_charges (e : EffCharges (ℝ × ℝ)) (he : ∀ row ∈ e.positions, ∀ q ∈ row, 0 < q.1) (n : Nat) (z0 : ℝ) :
    getElectrostaticAxialPotentialDerivatives e z0 n =
      iteratedDeriv n (fun z => Spec.superpose (fun q => ringPotential q.1 q.2 ⟨0, 0, z⟩) e) z0 := by
  have h : (fun z => Spec.superpose (fun q => ringPotential q.1 q.2 ⟨0, 0, z⟩) e) = fun z => axialDerivativesRadial z e 0 := by
    funext z
    rw [← EffCharges.loop_eq]
    exact loop_congr e (fun row hr q hq => ringPotential_axis (he row hr q hq) q.2 z)
  rw [h, iteratedDeriv_of_chain (fun n z => axialDerivativesRadial z e n) (axial_chain e he)]
  rfl

/-- **C51** (currents). For every distribution of current rings the `n`-th number is the `n`-th derivative of `current_potential_axial`, the scalar potential
whose derivative is minus the magnetic field on the axis according to the law of Biot and Savart. -/
theorem C51_currents (c : EffCharges V3) (hc : ∀ row ∈ c.positions, ∀ q ∈ row, 0 < q.x) :
    (∀ n z0, getCurrentAxialPotentialDerivatives c z0 n = iteratedDeriv n (fun z => currentPotentialAxial z c) z0) ∧
    ∀ z0, HasDerivAt (fun z => currentPotentialAxial z c) (-Spec.superpose (fun q => (ringField q.x q.z ⟨0, 0, z0⟩).z) c) z0 := by
  have h : (fun z => currentPotentialAxial z c) = fun z => currentAxialDerivativesRadial z c 0 := rfl
  refine ⟨fun n z0 => ?_, fun z0 => ?_⟩
  · rw [h, iteratedDeriv_of_chain (fun n z => currentAxialDerivativesRadial z c n) (current_axial_chain c hc)]
    rfl
  · rw [h]
    have hd := current_axial_chain c hc 0 z0
    refine HasDerivAt.congr_deriv hd ?_
    rw [← EffCharges.loop_eq]
    have e1 := loop_lin' c (fun q => (ringField q.x q.z ⟨0, 0, z0⟩).z) (fun _ => 0) (-1) 0
    simp only [mul_zero, add_zero, zero_mul, neg_one_mul] at e1
    rw [← e1]
    exact loop_congr c (fun row hr q hq => ringField_axis (hc row hr q hq) q.z z0)

/-- **C51** (magnetostatic fields). The `n`-th number is the `n`-th derivative of the sum of the scalar potentials of the magnetic charges and of the currents. -/
theorem C51_magnetostatic (e : EffCharges (ℝ × ℝ)) (c : EffCharges V3) (he : ∀ row ∈ e.positions, ∀ q ∈ row, 0 < q.1) (hc : ∀ row ∈ c.positions, ∀ q ∈ row, 0 < q.x)
    (n : Nat) (z0 : ℝ) : getMagnetostaticAxialPotentialDerivatives e c z0 n =
      iteratedDeriv n (fun z => Spec.superpose (fun q => ringPotential q.1 q.2 ⟨0, 0, z⟩) e + currentPotentialAxial z c) z0 := by
  have h : (fun z => Spec.superpose (fun q => ringPotential q.1 q.2 ⟨0, 0, z⟩) e + currentPotentialAxial z c) =
      fun z => axialDerivativesRadial z e 0 + currentAxialDerivativesRadial z c 0 := by
    funext z
    rw [← EffCharges.loop_eq, loop_congr e (fun row hr q hq => ringPotential_axis (he row hr q hq) q.2 z)]
    rfl
  rw [h, iteratedDeriv_of_chain (fun n z => axialDerivativesRadial z e n + currentAxialDerivativesRadial z c n)
    (fun n z => (axial_chain e he n z).add (current_axial_chain c hc n z))]
  rfl

/-- With exact elliptic integrals, the axial potential is the one `electrostatic_potential_at_point` returns on the axis (there `ellipkm1` is called with 1). -/
theorem C51_same_potential (e : EffCharges (ℝ × ℝ)) (he : ∀ row ∈ e.positions, ∀ q ∈ row, 0 < q.1) (z0 : ℝ) :
    getElectrostaticAxialPotentialDerivatives e z0 0 = potentialRadialWith ellK ⟨0, 0, z0⟩ e := by
  unfold getElectrostaticAxialPotentialDerivatives axialDerivativesRadial potentialRadialWith
  refine loop_congr e (fun row hr q hq => ?_)
  have hq0 := he row hr q hq
  rw [← ringPotential_axis hq0]
  refine (C68_ring_potential ⟨0, 0, z0⟩ q.1 q.2 hq0 ?_).symm
  intro φ hφ
  have hx := congrArg V3.x hφ
  have hy := congrArg V3.y hφ
  simp only [ringPoint] at hx hy
  have := sin_sq_add_cos_sq φ
  have h1 := (mul_eq_zero.1 hx).resolve_left hq0.ne'
  have h2 := (mul_eq_zero.1 hy).resolve_left hq0.ne'
  rw [h1, h2] at this
  norm_num at this

/-- Non-vacuous: two rings, of radius 1 and 2. The second derivative of the potential of the first ring at its centre is -1/2 (of `1/(2 sqrt(z² + 1))`). -/
example : (∀ row ∈ (EffCharges.mk 2 [1] [[1, 1]] [[((1 : ℝ), (0 : ℝ)), (2, 1)]]).positions, ∀ q ∈ row, 0 < q.1) ∧ axialDerivativesRadialRing 0 1 0 2 = -1 / 2 := by
  constructor
  · intro row hr q hq
    simp only [List.mem_singleton] at hr
    subst hr
    simp only [List.mem_cons, List.not_mem_nil, or_false] at hq
    rcases hq with rfl | rfl <;> norm_num
  · norm_num [axialDerivativesRadialRing, ringDerivsRaw, norm2d]

end Traceon
