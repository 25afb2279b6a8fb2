import Verif.Props.Ring
import Verif.Props.Vacuum
import Verif.Lemmas.Elliptic2

/-!
# Radially symmetric fields satisfy the vacuum equations (C109)
-/
namespace Traceon
open Spec Real

/-- The function `f` of the distance to the axis and the height has the partial derivatives `fu` and `fz`. -/
def Rad (f : ℝ → ℝ → ℝ) (fu fz : ℝ) (p : V3) : Prop :=
  IsGradient (fun q => f (norm2d q.x q.y) q.z) ⟨p.x / norm2d p.x p.y * fu, p.y / norm2d p.x p.y * fu, fz⟩ p

theorem Rad.eq {f : ℝ → ℝ → ℝ} {a b a' b' : ℝ} {p : V3} (h : Rad f a b p) (h1 : a = a') (h2 : b = b') : Rad f a' b' p := h1 ▸ h2 ▸ h

theorem Rad.congr {f f' : ℝ → ℝ → ℝ} {a b : ℝ} {p : V3} (h : Rad f a b p) (h1 : ∀ u z, f u z = f' u z) : Rad f' a b p :=
  IsGradient.congr h (fun _ => h1 _ _)

theorem Rad.const (c : ℝ) (p : V3) : Rad (fun _ _ => c) 0 0 p := (IsGradient.const c p).eq (by ext <;> simp)

theorem Rad.u {p : V3} (h : 0 < norm2d p.x p.y) : Rad (fun u _ => u) 1 0 p := (isGradient_norm2d p h).eq (by ext <;> simp)

theorem Rad.z (p : V3) : Rad (fun _ z => z) 0 1 p := (IsGradient.z p).eq (by ext <;> simp)

theorem Rad.add {f g : ℝ → ℝ → ℝ} {a b c d : ℝ} {p : V3} (h : Rad f a b p) (h' : Rad g c d p) : Rad (fun u z => f u z + g u z) (a + c) (b + d) p :=
  (IsGradient.add h h').eq (by ext <;> simp <;> ring)

theorem Rad.smul {f : ℝ → ℝ → ℝ} {a b : ℝ} {p : V3} (h : Rad f a b p) (k : ℝ) : Rad (fun u z => k * f u z) (k * a) (k * b) p :=
  (IsGradient.smul h k).eq (by ext <;> simp <;> ring)

theorem Rad.mul {f g : ℝ → ℝ → ℝ} {a b c d : ℝ} {p : V3} (h : Rad f a b p) (h' : Rad g c d p) :
    Rad (fun u z => f u z * g u z) (f (norm2d p.x p.y) p.z * c + g (norm2d p.x p.y) p.z * a) (f (norm2d p.x p.y) p.z * d + g (norm2d p.x p.y) p.z * b) p :=
  (IsGradient.mul h h').eq (by ext <;> simp <;> ring)

theorem Rad.comp {f : ℝ → ℝ → ℝ} {a b d : ℝ} {p : V3} {φ : ℝ → ℝ} (hφ : HasDerivAt φ d (f (norm2d p.x p.y) p.z)) (h : Rad f a b p) :
    Rad (fun u z => φ (f u z)) (d * a) (d * b) p :=
  (IsGradient.comp (f := fun q => f (norm2d q.x q.y) q.z) hφ h).eq (by ext <;> simp <;> ring)

theorem loop_mul_left {P : Type} (e : EffCharges P) (k : ℝ) (f : P → ℝ) : e.loop (fun q => k * f q) = k * e.loop f := by
  simp only [EffCharges.loop_eq]
  unfold Spec.superpose
  rw [← List.sum_map_mul_left]
  congr 1
  refine List.map_congr_left fun x _ => ?_
  rw [← List.sum_map_mul_left]
  congr 1
  refine List.map_congr_left fun y _ => ?_
  ring

theorem loop_nought {P : Type} (e : EffCharges P) : e.loop (fun _ => 0) = 0 := by
  have := loop_mul_left e 0 (fun _ => 0)
  simpa using this

theorem Rad.loop {P : Type} (e : EffCharges P) (f : P → ℝ → ℝ → ℝ) (a b : P → ℝ) (p : V3) (h : ∀ row ∈ e.positions, ∀ q ∈ row, Rad (f q) (a q) (b q) p) :
    Rad (fun u z => e.loop (fun q => f q u z)) (e.loop a) (e.loop b) p := by
  refine (IsGradient.loop e (fun s q => f q (norm2d s.x s.y) s.z) (fun q => ⟨p.x / norm2d p.x p.y * a q, p.y / norm2d p.x p.y * a q, b q⟩) p h).eq ?_
  ext
  · exact loop_mul_left _ _ _
  · exact loop_mul_left _ _ _
  · rfl

/-- The radial and the axial component satisfy the equations of a static field in vacuum, in cylindrical coordinates. -/
def RadialVacuum (er ez : ℝ → ℝ → ℝ) (p : V3) : Prop :=
  ∃ a b c d, Rad er a b p ∧ Rad ez c d p ∧ a + er (norm2d p.x p.y) p.z / norm2d p.x p.y + d = 0 ∧ b = c

theorem RadialVacuum.smul {er ez : ℝ → ℝ → ℝ} {p : V3} (h : RadialVacuum er ez p) (k : ℝ) : RadialVacuum (fun u z => k * er u z) (fun u z => k * ez u z) p := by
  obtain ⟨a, b, c, d, h1, h2, h3, h4⟩ := h
  exact ⟨_, _, _, _, h1.smul k, h2.smul k, by linear_combination k * h3, by rw [h4]⟩

theorem RadialVacuum.add {er ez er' ez' : ℝ → ℝ → ℝ} {p : V3} (h : RadialVacuum er ez p) (h' : RadialVacuum er' ez' p) :
    RadialVacuum (fun u z => er u z + er' u z) (fun u z => ez u z + ez' u z) p := by
  obtain ⟨a, b, c, d, h1, h2, h3, h4⟩ := h
  obtain ⟨a', b', c', d', h1', h2', h3', h4'⟩ := h'
  exact ⟨_, _, _, _, h1.add h1', h2.add h2', by linear_combination h3 + h3', by rw [h4, h4']⟩

theorem RadialVacuum.loop {P : Type} (e : EffCharges P) (er ez : P → ℝ → ℝ → ℝ) (p : V3) (h : ∀ row ∈ e.positions, ∀ q ∈ row, RadialVacuum (er q) (ez q) p) :
    RadialVacuum (fun u z => e.loop (fun q => er q u z)) (fun u z => e.loop (fun q => ez q u z)) p := by
  classical
  have hc : ∀ q, ∃ a b c d, RadialVacuum (er q) (ez q) p → Rad (er q) a b p ∧ Rad (ez q) c d p ∧ a + er q (norm2d p.x p.y) p.z / norm2d p.x p.y + d = 0 ∧ b = c := by
    intro q
    by_cases hq : RadialVacuum (er q) (ez q) p
    · obtain ⟨a, b, c, d, h⟩ := hq
      exact ⟨a, b, c, d, fun _ => h⟩
    · exact ⟨0, 0, 0, 0, fun h => absurd h hq⟩
  choose a b c d hq using hc
  refine ⟨_, _, _, _, Rad.loop e er a b p (fun row hr q hm => (hq q (h row hr q hm)).1), Rad.loop e ez c d p (fun row hr q hm => (hq q (h row hr q hm)).2.1), ?_, ?_⟩
  · rw [div_eq_inv_mul, ← loop_mul_left, ← loop_add', ← loop_add']
    refine (loop_congr e fun row hr q hm => ?_).trans (loop_nought e)
    rw [← div_eq_inv_mul]
    exact (hq q (h row hr q hm)).2.2.1
  · exact loop_congr e fun row hr q hm => (hq q (h row hr q hm)).2.2.2

/-- In Cartesian coordinates. -/
theorem RadialVacuum.vacuum {er ez : ℝ → ℝ → ℝ} {p : V3} (hu : 0 < norm2d p.x p.y) (h : RadialVacuum er ez p) :
    VacuumField (fun q => ⟨q.x / norm2d q.x q.y * er (norm2d q.x q.y) q.z, q.y / norm2d q.x q.y * er (norm2d q.x q.y) q.z, ez (norm2d q.x q.y) q.z⟩) p := by
  obtain ⟨a, b, c, d, h1, h2, h3, h4⟩ := h
  have hi := Rad.comp (φ := fun x => x⁻¹) (hasDerivAt_inv hu.ne') (Rad.u hu)
  have hm := hi.mul h1
  have gx := ((IsGradient.x p).mul hm).congr (f' := fun q => q.x / norm2d q.x q.y * er (norm2d q.x q.y) q.z) (fun q => by rw [div_eq_mul_inv, mul_assoc])
  have gy := ((IsGradient.y p).mul hm).congr (f' := fun q => q.y / norm2d q.x q.y * er (norm2d q.x q.y) q.z) (fun q => by rw [div_eq_mul_inv, mul_assoc])
  have hsq : norm2d p.x p.y ^ 2 = p.x ^ 2 + p.y ^ 2 := by
    unfold norm2d
    rw [Real.sq_sqrt (add_nonneg (mul_self_nonneg _) (mul_self_nonneg _))]; ring
  refine ⟨_, _, _, gx, gy, h2, ?_, ?_, ?_, ?_⟩
  · simp
    generalize er (norm2d p.x p.y) p.z = E at *
    generalize norm2d p.x p.y = u at *
    have h3' : d = -(a + E / u) := by linarith
    rw [h3']
    field_simp
    linear_combination (E - a * u) * hsq
  · simp; rw [h4]; ring
  · simp; rw [h4]; ring
  · simp; ring

/-! ## One ring -/

/-- What is needed of the two distances and the elliptic integrals. -/
theorem ring_parts {p : V3} {r z : ℝ} (hr : 0 < r) (hoff : OffRing p r z) (hu : 0 < norm2d p.x p.y) :
    ∃ A D σ k e : ℝ, 0 < A ∧ 0 < D ∧ 0 < σ ∧ σ = (√(farSq (norm2d p.x p.y) p.z r z))⁻¹ ∧ A = (z - p.z) ^ 2 + (r - norm2d p.x p.y) ^ 2 ∧ D = (z - p.z) ^ 2 + (r + norm2d p.x p.y) ^ 2 ∧
      k = ellK (nearSq (norm2d p.x p.y) p.z r z / farSq (norm2d p.x p.y) p.z r z) ∧ e = ellE (nearSq (norm2d p.x p.y) p.z r z / farSq (norm2d p.x p.y) p.z r z) ∧
      Rad (fun u w => (nearSq u w r z)⁻¹) (-(1 / A ^ 2) * (-(2 * (r - norm2d p.x p.y)))) (-(1 / A ^ 2) * (-(2 * (z - p.z)))) p ∧
      Rad (fun u w => (√(farSq u w r z))⁻¹) (-(1 / 2) * (σ / D) * (2 * (r + norm2d p.x p.y))) (-(1 / 2) * (σ / D) * (-(2 * (z - p.z)))) p ∧
      Rad (fun u w => ellK (nearSq u w r z / farSq u w r z))
        (-(e - A / D * k) / (2 * (A / D) * (4 * norm2d p.x p.y * r / D)) * ((-(2 * (r - norm2d p.x p.y))) / D - A * (2 * (r + norm2d p.x p.y)) / D ^ 2))
        (-(e - A / D * k) / (2 * (A / D) * (4 * norm2d p.x p.y * r / D)) * ((-(2 * (z - p.z))) / D - A * (-(2 * (z - p.z))) / D ^ 2)) p ∧
      Rad (fun u w => ellE (nearSq u w r z / farSq u w r z))
        ((k - e) / (2 * (4 * norm2d p.x p.y * r / D)) * ((-(2 * (r - norm2d p.x p.y))) / D - A * (2 * (r + norm2d p.x p.y)) / D ^ 2))
        ((k - e) / (2 * (4 * norm2d p.x p.y * r / D)) * ((-(2 * (z - p.z))) / D - A * (-(2 * (z - p.z))) / D ^ 2)) p := by
  have hn := nearSq_pos hoff
  have hf : 0 < farSq (norm2d p.x p.y) p.z r z := lt_of_lt_of_le hn (near_le_far hu.le hr.le)
  have hlt : nearSq (norm2d p.x p.y) p.z r z / farSq (norm2d p.x p.y) p.z r z < 1 := by
    rw [div_lt_one hf]; unfold nearSq farSq; nlinarith [mul_pos hu hr]
  have hs := Real.sqrt_pos.2 hf
  have hdz : Rad (fun _ w => z - w) 0 (-1) p := ((Rad.const z p).add ((Rad.z p).smul (-1))).congr (fun u w => by ring) |>.eq (by ring) (by ring)
  have hdr : Rad (fun u _ => r - u) (-1) 0 p := ((Rad.const r p).add ((Rad.u hu).smul (-1))).congr (fun u w => by ring) |>.eq (by ring) (by ring)
  have hsr : Rad (fun u _ => r + u) 1 0 p := ((Rad.const r p).add (Rad.u hu)).eq (by ring) (by ring)
  have hA : Rad (fun u w => nearSq u w r z) (-(2 * (r - norm2d p.x p.y))) (-(2 * (z - p.z))) p :=
    ((hdz.mul hdz).add (hdr.mul hdr)).congr (fun u w => by unfold nearSq; ring) |>.eq (by ring) (by ring)
  have hD : Rad (fun u w => farSq u w r z) (2 * (r + norm2d p.x p.y)) (-(2 * (z - p.z))) p :=
    ((hdz.mul hdz).add (hsr.mul hsr)).congr (fun u w => by unfold farSq; ring) |>.eq (by ring) (by ring)
  have hAi := Rad.comp (φ := fun x => x⁻¹) (hasDerivAt_inv hn.ne') hA
  have hDi := Rad.comp (φ := fun x => x⁻¹) (hasDerivAt_inv hf.ne') hD
  have ht : Rad (fun u w => nearSq u w r z / farSq u w r z)
      ((-(2 * (r - norm2d p.x p.y))) / farSq (norm2d p.x p.y) p.z r z - nearSq (norm2d p.x p.y) p.z r z * (2 * (r + norm2d p.x p.y)) / farSq (norm2d p.x p.y) p.z r z ^ 2)
      ((-(2 * (z - p.z))) / farSq (norm2d p.x p.y) p.z r z - nearSq (norm2d p.x p.y) p.z r z * (-(2 * (z - p.z))) / farSq (norm2d p.x p.y) p.z r z ^ 2) p :=
    (hA.mul hDi).congr (fun u w => by rw [div_eq_mul_inv]) |>.eq (by field_simp; ring) (by field_simp; ring)
  have hsq : HasDerivAt (fun x => (√x)⁻¹) (-(1 / 2) * ((√(farSq (norm2d p.x p.y) p.z r z))⁻¹ / farSq (norm2d p.x p.y) p.z r z)) (farSq (norm2d p.x p.y) p.z r z) := by
    refine ((Real.hasDerivAt_sqrt hf.ne').inv hs.ne').congr_deriv ?_
    rw [Real.sq_sqrt hf.le]
    field_simp
  have e7 : 1 - nearSq (norm2d p.x p.y) p.z r z / farSq (norm2d p.x p.y) p.z r z = 4 * norm2d p.x p.y * r / farSq (norm2d p.x p.y) p.z r z := by
    rw [eq_div_iff hf.ne', sub_mul, div_mul_cancel₀ _ hf.ne']; unfold nearSq farSq; ring
  have hK := hasDerivAt_ellK (div_pos hn hf) hlt.ne
  have hE := hasDerivAt_ellE (div_pos hn hf) hlt.ne
  rw [e7] at hK hE
  refine ⟨_, _, _, _, _, hn, hf, inv_pos.2 hs, rfl, rfl, rfl, rfl, rfl, hAi.eq (by rw [one_div]) (by rw [one_div]), Rad.comp (φ := fun x => (√x)⁻¹) hsq hD, Rad.comp hK ht, Rad.comp hE ht⟩

/-- The gradient of the potential of a charged ring. -/
theorem ring_vacuum {p : V3} {r z : ℝ} (hr : 0 < r) (hoff : OffRing p r z) (hu : 0 < norm2d p.x p.y) :
    RadialVacuum (fun u w => -(1 / (2 * π) * r) * ((nearSq u w r z * ellK (nearSq u w r z / farSq u w r z) + (u ^ 2 - r ^ 2 - (z - w) ^ 2) * ellE (nearSq u w r z / farSq u w r z)) *
        (u⁻¹ * ((nearSq u w r z)⁻¹ * (√(farSq u w r z))⁻¹))))
      (fun u w => (1 / π * r) * ((z - w) * ellE (nearSq u w r z / farSq u w r z) * ((nearSq u w r z)⁻¹ * (√(farSq u w r z))⁻¹))) p := by
  obtain ⟨A, D, σ, k, e, hA0, hD0, hσ0, hσ, hA, hD, hk, he, gA, gS, gK, gE⟩ := ring_parts hr hoff hu
  have hdz : Rad (fun _ w => z - w) 0 (-1) p := ((Rad.const z p).add ((Rad.z p).smul (-1))).congr (fun u w => by ring) |>.eq (by ring) (by ring)
  have hdr : Rad (fun u _ => r - u) (-1) 0 p := ((Rad.const r p).add ((Rad.u hu).smul (-1))).congr (fun u w => by ring) |>.eq (by ring) (by ring)
  have hN : Rad (fun u w => nearSq u w r z) (-(2 * (r - norm2d p.x p.y))) (-(2 * (z - p.z))) p :=
    ((hdz.mul hdz).add (hdr.mul hdr)).congr (fun u w => by unfold nearSq; ring) |>.eq (by ring) (by ring)
  have hM : Rad (fun u w => u ^ 2 - r ^ 2 - (z - w) ^ 2) (2 * norm2d p.x p.y) (2 * (z - p.z)) p :=
    ((((Rad.u hu).mul (Rad.u hu)).add (Rad.const (-r ^ 2) p)).add ((hdz.mul hdz).smul (-1))).congr (fun u w => by ring) |>.eq (by ring) (by ring)
  have gU := Rad.comp (φ := fun x => x⁻¹) (hasDerivAt_inv hu.ne') (Rad.u hu)
  have g1 := (((hN.mul gK).add (hM.mul gE)).mul (gU.mul (gA.mul gS))).smul (-(1 / (2 * π) * r))
  have g2 := ((hdz.mul gE).mul (gA.mul gS)).smul (1 / π * r)
  have hA' : nearSq (norm2d p.x p.y) p.z r z = A := hA.symm
  refine ⟨_, _, _, _, g1, g2, ?_, ?_⟩
  all_goals
    have hpi := Real.pi_pos
    simp only [← hσ, ← hk, ← he]
    simp only [hA']
    generalize norm2d p.x p.y = u at *
    field_simp
    rw [hA, hD]
    ring

/-- The field of a current loop. -/
theorem loop_vacuum {p : V3} {r z : ℝ} (hr : 0 < r) (hoff : OffRing p r z) (hu : 0 < norm2d p.x p.y) :
    RadialVacuum (fun u w => (1 / (2 * π)) * ((w - z) * (((w - z) ^ 2 + u ^ 2 + r ^ 2) * ((nearSq u w r z)⁻¹ * ellE (nearSq u w r z / farSq u w r z)) +
        (-1) * ellK (nearSq u w r z / farSq u w r z)) * (u⁻¹ * (√(farSq u w r z))⁻¹)))
      (fun u w => (1 / (2 * π)) * (((r ^ 2 - (w - z) ^ 2 - u ^ 2) * ((nearSq u w r z)⁻¹ * ellE (nearSq u w r z / farSq u w r z)) +
        ellK (nearSq u w r z / farSq u w r z)) * (√(farSq u w r z))⁻¹)) p := by
  obtain ⟨A, D, σ, k, e, hA0, hD0, hσ0, hσ, hA, hD, hk, he, gA, gS, gK, gE⟩ := ring_parts hr hoff hu
  have hdz : Rad (fun _ w => w - z) 0 1 p := ((Rad.const (-z) p).add (Rad.z p)).congr (fun u w => by ring) |>.eq (by ring) (by ring)
  have hM1 : Rad (fun u w => (w - z) ^ 2 + u ^ 2 + r ^ 2) (2 * norm2d p.x p.y) (2 * (p.z - z)) p :=
    (((hdz.mul hdz).add ((Rad.u hu).mul (Rad.u hu))).add (Rad.const (r ^ 2) p)).congr (fun u w => by ring) |>.eq (by ring) (by ring)
  have hM2 : Rad (fun u w => r ^ 2 - (w - z) ^ 2 - u ^ 2) (-(2 * norm2d p.x p.y)) (-(2 * (p.z - z))) p :=
    ((Rad.const (r ^ 2) p).add (((hdz.mul hdz).add ((Rad.u hu).mul (Rad.u hu))).smul (-1))).congr (fun u w => by ring) |>.eq (by ring) (by ring)
  have gU := Rad.comp (φ := fun x => x⁻¹) (hasDerivAt_inv hu.ne') (Rad.u hu)
  have g1 := ((hdz.mul ((hM1.mul (gA.mul gE)).add (gK.smul (-1)))).mul (gU.mul gS)).smul (1 / (2 * π))
  have g2 := (((hM2.mul (gA.mul gE)).add gK).mul gS).smul (1 / (2 * π))
  have hA' : nearSq (norm2d p.x p.y) p.z r z = A := hA.symm
  refine ⟨_, _, _, _, g1, g2, ?_, ?_⟩
  all_goals
    have hpi := Real.pi_pos
    simp only [← hσ, ← hk, ← he]
    simp only [hA']
    generalize norm2d p.x p.y = u at *
    field_simp
    rw [hA, hD]
    ring

/-! ## All rings -/

theorem Spec.IsGradient.near {f f' : V3 → ℝ} {g p : V3} (h : IsGradient f g p) (hf : ∀ᶠ v : ℝ × ℝ × ℝ in nhds (p.x, p.y, p.z), f' ⟨v.1, v.2.1, v.2.2⟩ = f ⟨v.1, v.2.1, v.2.2⟩) :
    IsGradient f' g p := HasFDerivAt.congr_of_eventuallyEq h hf

theorem Spec.VacuumField.near {F F' : V3 → V3} {p : V3} (h : VacuumField F p) (hf : ∀ᶠ v : ℝ × ℝ × ℝ in nhds (p.x, p.y, p.z), F' ⟨v.1, v.2.1, v.2.2⟩ = F ⟨v.1, v.2.1, v.2.2⟩) :
    VacuumField F' p := by
  obtain ⟨gx, gy, gz, h1, h2, h3, h4⟩ := h
  exact ⟨gx, gy, gz, h1.near (hf.mono fun v hv => by rw [hv]), h2.near (hf.mono fun v hv => by rw [hv]), h3.near (hf.mono fun v hv => by rw [hv]), h4⟩

theorem off_axis_near {p : V3} (h : minDistanceAxis < norm2d p.x p.y) : ∀ᶠ v : ℝ × ℝ × ℝ in nhds (p.x, p.y, p.z), minDistanceAxis < norm2d v.1 v.2.1 := by
  have hc : Continuous (fun v : ℝ × ℝ × ℝ => norm2d v.1 v.2.1) := by unfold norm2d; fun_prop
  exact hc.continuousAt.eventually (lt_mem_nhds h)

theorem axis_pos : 0 < minDistanceAxis := by unfold minDistanceAxis; norm_num

/-- The field of charged rings, farther than `1e-10` from the axis. -/
theorem rings_vacuum (e : EffCharges (ℝ × ℝ)) {p : V3} (hax : minDistanceAxis < norm2d p.x p.y) (hoff : ∀ row ∈ e.positions, ∀ q ∈ row, 0 < q.1 ∧ OffRing p q.1 q.2) :
    VacuumField (fun q => fieldRadialWith ellK ellE q e) p := by
  have hu := axis_pos.trans hax
  have h := ((RadialVacuum.loop e _ _ p fun row hr q hm => ring_vacuum (hoff row hr q hm).1 (hoff row hr q hm).2 hu).smul (-1)).vacuum hu
  refine h.near ((off_axis_near hax).mono fun v hv => ?_)
  have hv0 := axis_pos.trans hv
  unfold fieldRadialWith fromRadial
  simp only
  rw [if_pos hv.le, EffCharges.loopSub_loop, EffCharges.loopSub_loop]
  have e1 : e.loop (fun q => dr1RingWith ellK ellE (norm2d v.1 v.2.1) v.2.2 q.1 q.2) = e.loop (fun q => -(1 / (2 * π) * q.1) * ((nearSq (norm2d v.1 v.2.1) v.2.2 q.1 q.2 *
      ellK (nearSq (norm2d v.1 v.2.1) v.2.2 q.1 q.2 / farSq (norm2d v.1 v.2.1) v.2.2 q.1 q.2) + ((norm2d v.1 v.2.1) ^ 2 - q.1 ^ 2 - (q.2 - v.2.2) ^ 2) *
      ellE (nearSq (norm2d v.1 v.2.1) v.2.2 q.1 q.2 / farSq (norm2d v.1 v.2.1) v.2.2 q.1 q.2)) *
        ((norm2d v.1 v.2.1)⁻¹ * ((nearSq (norm2d v.1 v.2.1) v.2.2 q.1 q.2)⁻¹ * (√(farSq (norm2d v.1 v.2.1) v.2.2 q.1 q.2))⁻¹)))) := by
    refine loop_congr e fun row hr q hm => ?_
    generalize norm2d v.1 v.2.1 = u at *
    generalize v.2.2 = w
    unfold dr1RingWith
    rw [if_neg (not_lt.2 hv.le)]
    simp only
    have e1 : ((q.2 - w) * (q.2 - w) + (q.1 - u) * (q.1 - u)) / (4 * q.1 * q.1 - 4 * (q.1 - u) * q.1 + (q.2 - w) * (q.2 - w) + (q.1 - u) * (q.1 - u)) = nearSq u w q.1 q.2 / farSq u w q.1 q.2 := by
      unfold nearSq farSq; congr 1 <;> ring
    have e2 : 4 * q.1 * q.1 - 4 * (q.1 - u) * q.1 + (q.2 - w) * (q.2 - w) + (q.1 - u) * (q.1 - u) = farSq u w q.1 q.2 := by unfold farSq; ring
    have e6 : -2 * (q.1 - u) * (q.1 - u) * q.1 + (q.2 - w) * (q.2 - w) * (2 * (q.1 - u) - 2 * q.1) + 2 * (q.1 - u) * (q.1 - u) * (q.1 - u) = -(2 * u * nearSq u w q.1 q.2) := by unfold nearSq; ring
    have e8 : (q.2 - w) * (q.2 - w) * q.1 + (q.1 - u) * (q.1 - u) * q.1 = q.1 * nearSq u w q.1 q.2 := by unfold nearSq; ring
    rw [e1, e2, e6, e8]
    generalize ellK _ = k
    generalize ellE _ = ee
    generalize (√_) = s
    generalize nearSq u w q.1 q.2 = A
    rw [div_eq_mul_inv, mul_inv, ← neg_inv, mul_inv, mul_inv, one_div, one_div, mul_inv]
    ring
  have e2 : e.loop (fun q => dz1RingWith ellE (norm2d v.1 v.2.1) v.2.2 q.1 q.2) = e.loop (fun q => (1 / π * q.1) * ((q.2 - v.2.2) *
      ellE (nearSq (norm2d v.1 v.2.1) v.2.2 q.1 q.2 / farSq (norm2d v.1 v.2.1) v.2.2 q.1 q.2) *
        ((nearSq (norm2d v.1 v.2.1) v.2.2 q.1 q.2)⁻¹ * (√(farSq (norm2d v.1 v.2.1) v.2.2 q.1 q.2))⁻¹))) := by
    refine loop_congr e fun row hr q hm => ?_
    generalize norm2d v.1 v.2.1 = u at *
    generalize v.2.2 = w
    unfold dz1RingWith
    simp only
    have e3 : ((q.2 - w) * (q.2 - w) + (q.1 - u) * (q.1 - u)) / (4 * u * u + 4 * (q.1 - u) * u + (q.2 - w) * (q.2 - w) + (q.1 - u) * (q.1 - u)) = nearSq u w q.1 q.2 / farSq u w q.1 q.2 := by
      unfold nearSq farSq; congr 1 <;> ring
    have e4 : 4 * u * u + 4 * (q.1 - u) * u + (q.2 - w) * (q.2 - w) + (q.1 - u) * (q.1 - u) = farSq u w q.1 q.2 := by unfold farSq; ring
    have e5 : (q.2 - w) * (q.2 - w) + (q.1 - u) * (q.1 - u) = nearSq u w q.1 q.2 := by unfold nearSq; ring
    rw [e3, e4, e5]
    generalize ellE _ = ee
    generalize (√_) = s
    generalize nearSq u w q.1 q.2 = A
    rw [div_eq_mul_inv, mul_inv]
    ring
  rw [e1, e2]
  ext <;> simp

/-- The field of current loops, farther than `1e-10` from the axis. -/
theorem loops_vacuum (e : EffCharges V3) {p : V3} (hax : minDistanceAxis < norm2d p.x p.y) (hoff : ∀ row ∈ e.positions, ∀ q ∈ row, minDistanceAxis ≤ q.x ∧ OffRing p q.x q.z) :
    VacuumField (fun q => currentFieldWith (fun k => ellK (1 - k)) (fun k => ellE (1 - k)) q e) p := by
  have hu := axis_pos.trans hax
  have h := (RadialVacuum.loop e _ _ p fun row hr q hm => loop_vacuum (axis_pos.trans_le (hoff row hr q hm).1) (hoff row hr q hm).2 hu).vacuum hu
  have ht : ∀ u w r z, 0 < u → 0 < r → 1 - 4 * u * r / ((w - z) ^ 2 + (r + u) ^ 2) = nearSq u w r z / farSq u w r z := by
    intro u w r z hu hr
    have hf : 0 < farSq u w r z := by unfold farSq; positivity
    rw [eq_div_iff hf.ne', show (w - z) ^ 2 + (r + u) ^ 2 = farSq u w r z by unfold farSq; ring, sub_mul, div_mul_cancel₀ _ hf.ne']
    unfold nearSq farSq; ring
  refine h.near ((off_axis_near hax).mono fun v hv => ?_)
  have hv0 := axis_pos.trans hv
  unfold currentFieldWith fromRadial
  simp only
  rw [if_pos hv.le]
  have e1 : e.loop (fun q => (currentFieldRingWith (fun k => ellK (1 - k)) (fun k => ellE (1 - k)) (norm2d v.1 v.2.1) v.2.2 q.x q.z).1) = e.loop (fun q =>
      (1 / (2 * π)) * ((v.2.2 - q.z) * (((v.2.2 - q.z) ^ 2 + (norm2d v.1 v.2.1) ^ 2 + q.x ^ 2) * ((nearSq (norm2d v.1 v.2.1) v.2.2 q.x q.z)⁻¹ *
        ellE (nearSq (norm2d v.1 v.2.1) v.2.2 q.x q.z / farSq (norm2d v.1 v.2.1) v.2.2 q.x q.z)) +
        (-1) * ellK (nearSq (norm2d v.1 v.2.1) v.2.2 q.x q.z / farSq (norm2d v.1 v.2.1) v.2.2 q.x q.z)) * ((norm2d v.1 v.2.1)⁻¹ * (√(farSq (norm2d v.1 v.2.1) v.2.2 q.x q.z))⁻¹))) := by
    refine loop_congr e fun row hr q hm => ?_
    have hq := (hoff row hr q hm).1
    generalize norm2d v.1 v.2.1 = u at *
    generalize v.2.2 = w
    unfold currentFieldRingWith
    simp only
    rw [if_neg (not_lt.2 hq), if_neg (not_lt.2 hv.le), ht u w q.x q.z hv0 (axis_pos.trans_le hq), show (w - q.z) ^ 2 + (q.x + u) ^ 2 = farSq u w q.x q.z by unfold farSq; ring,
      show (w - q.z) ^ 2 + (u - q.x) ^ 2 = nearSq u w q.x q.z by unfold nearSq; ring]
    generalize ellK _ = k
    generalize ellE _ = ee
    generalize (√_) = s
    generalize nearSq u w q.x q.z = A
    rw [div_eq_mul_inv, div_eq_mul_inv, div_eq_mul_inv, div_eq_mul_inv, mul_inv, mul_inv, mul_inv]
    ring
  have e2 : e.loop (fun q => (currentFieldRingWith (fun k => ellK (1 - k)) (fun k => ellE (1 - k)) (norm2d v.1 v.2.1) v.2.2 q.x q.z).2) = e.loop (fun q =>
      (1 / (2 * π)) * (((q.x ^ 2 - (v.2.2 - q.z) ^ 2 - (norm2d v.1 v.2.1) ^ 2) * ((nearSq (norm2d v.1 v.2.1) v.2.2 q.x q.z)⁻¹ *
        ellE (nearSq (norm2d v.1 v.2.1) v.2.2 q.x q.z / farSq (norm2d v.1 v.2.1) v.2.2 q.x q.z)) +
        ellK (nearSq (norm2d v.1 v.2.1) v.2.2 q.x q.z / farSq (norm2d v.1 v.2.1) v.2.2 q.x q.z)) * (√(farSq (norm2d v.1 v.2.1) v.2.2 q.x q.z))⁻¹)) := by
    refine loop_congr e fun row hr q hm => ?_
    have hq := (hoff row hr q hm).1
    generalize norm2d v.1 v.2.1 = u at *
    generalize v.2.2 = w
    unfold currentFieldRingWith
    simp only
    rw [if_neg (not_lt.2 hq), ht u w q.x q.z hv0 (axis_pos.trans_le hq), show (w - q.z) ^ 2 + (q.x + u) ^ 2 = farSq u w q.x q.z by unfold farSq; ring,
      show (w - q.z) ^ 2 + (u - q.x) ^ 2 = nearSq u w q.x q.z by unfold nearSq; ring]
    generalize ellK _ = k
    generalize ellE _ = ee
    generalize (√_) = s
    generalize nearSq u w q.x q.z = A
    rw [div_eq_mul_inv, div_eq_mul_inv, div_eq_mul_inv, div_eq_mul_inv, mul_inv, mul_inv]
    ring
  rw [e1, e2]

end Traceon
