import Verif.Lemmas.EllipticBound2
import Verif.Props.Ring

/-!
# C75: the elliptic integrals are accurate, and so are the potentials and fields of rings

`ellipkm1`, `ellipem1`, `ellipk` and `ellipe` (elliptic.c) are polynomials and a logarithm, with sixteen coefficients each. They are
compared with the integrals they stand for.
-/
namespace Traceon
open Real Spec V3 MeasureTheory

/-! ## Specification -/
namespace Spec

/-- The sum of the absolute values of the weights `charge · jacobian`, each multiplied by `B` at the position. -/
noncomputable def absSuperpose {P : Type} (B : P → ℝ) (e : EffCharges P) : ℝ :=
  ((e.charges.zip (e.jacobians.zip e.positions)).map (fun x => ((x.2.1.zip x.2.2).map (fun y => |x.1| * |y.1| * B y.2)).sum)).sum

/-- The distance of a point to the axis. -/
noncomputable def axisDist (p : V3) : ℝ := √(p.x ^ 2 + p.y ^ 2)

/-- The distance of a point to the nearest point of a ring. -/
noncomputable def ringNear (r z : ℝ) (p : V3) : ℝ := √((p.z - z) ^ 2 + (axisDist p - r) ^ 2)

/-- The distance of a point to the farthest point of a ring. -/
noncomputable def ringFar (r z : ℝ) (p : V3) : ℝ := √((p.z - z) ^ 2 + (axisDist p + r) ^ 2)

/-- The potential of a distribution of charged rings. -/
noncomputable def ringsPotential (e : EffCharges (ℝ × ℝ)) (p : V3) : ℝ :=
  ((e.charges.zip (e.jacobians.zip e.positions)).map (fun x => ((x.2.1.zip x.2.2).map (fun y => x.1 * y.1 * ringPotential y.2.1 y.2.2 p)).sum)).sum

end Spec

/-! ## The elliptic integrals -/

/-- **C75** (complementary parameter). For every `0 < p ≤ 1`, `ellipkm1` and `ellipem1` differ from the complete elliptic integrals by at most `6·10⁻¹³`. -/
theorem C75_elliptic {p : ℝ} (hp : 0 < p) (h1 : p ≤ 1) :
    |ellipkm1 p - ∫ θ in (0 : ℝ)..π / 2, 1 / √(cos θ ^ 2 + p * sin θ ^ 2)| ≤ 6e-13 ∧
    |ellipem1 p - ∫ θ in (0 : ℝ)..π / 2, √(cos θ ^ 2 + p * sin θ ^ 2)| ≤ 6e-13 := by
  have a := ellipkm1_accurate hp h1
  have b := ellipem1_accurate hp h1
  have e : (6e-13 : ℝ) = 6 / 10 ^ 13 := by norm_num
  rw [e]
  exact ⟨a, b⟩

/-- **C75** (parameter `k`). For every `0 ≤ k < 1`, `ellipk` and `ellipe` differ from the complete elliptic integrals by at most `6·10⁻¹³`. -/
theorem C75_elliptic_parameter {k : ℝ} (h0 : 0 ≤ k) (h1 : k < 1) :
    |ellipk k - ∫ θ in (0 : ℝ)..π / 2, 1 / √(1 - k * sin θ ^ 2)| ≤ 6e-13 ∧
    |ellipe k - ∫ θ in (0 : ℝ)..π / 2, √(1 - k * sin θ ^ 2)| ≤ 6e-13 := by
  have h := C75_elliptic (p := 1 - k) (by linarith) (by linarith)
  have e : ∀ θ : ℝ, cos θ ^ 2 + (1 - k) * sin θ ^ 2 = 1 - k * sin θ ^ 2 := by
    intro θ; have := sin_sq_add_cos_sq θ; linarith
  simp only [e] at h
  rw [(ellipk_complementary h0 h1.le).1, (ellipk_complementary h0 h1.le).2]
  exact h

/-! ## Sums -/

theorem abs_loop_sub_le {P : Type} (e : EffCharges P) {f g B : P → ℝ} (h : ∀ row ∈ e.positions, ∀ q ∈ row, |f q - g q| ≤ B q) :
    |e.loop f - e.loop g| ≤ absSuperpose B e := by
  simp only [EffCharges.loop_eq]
  unfold superpose absSuperpose
  have inner : ∀ (c : ℝ) (l : List (ℝ × P)), (∀ y ∈ l, |f y.2 - g y.2| ≤ B y.2) →
      |(l.map (fun y => c * y.1 * f y.2)).sum - (l.map (fun y => c * y.1 * g y.2)).sum| ≤ (l.map (fun y => |c| * |y.1| * B y.2)).sum := by
    intro c l hl
    induction l with
    | nil => simp
    | cons y l ih =>
      simp only [List.map_cons, List.sum_cons]
      have h1 := ih (fun y hy => hl y (List.mem_cons_of_mem _ hy))
      have h2 := hl y List.mem_cons_self
      have h3 : |c * y.1 * f y.2 - c * y.1 * g y.2| ≤ |c| * |y.1| * B y.2 := by
        rw [← mul_sub, abs_mul, abs_mul]
        exact mul_le_mul_of_nonneg_left h2 (by positivity)
      calc _ = |(c * y.1 * f y.2 - c * y.1 * g y.2) + ((l.map (fun y => c * y.1 * f y.2)).sum - (l.map (fun y => c * y.1 * g y.2)).sum)| := by congr 1; ring
        _ ≤ _ := (abs_add_le _ _).trans (add_le_add h3 h1)
  have hl : ∀ x ∈ e.charges.zip (e.jacobians.zip e.positions), ∀ y ∈ x.2.1.zip x.2.2, |f y.2 - g y.2| ≤ B y.2 := by
    rintro ⟨c, js, ps⟩ hx ⟨j, q⟩ hy
    exact h ps (List.of_mem_zip (List.of_mem_zip hx).2).2 q (List.of_mem_zip hy).2
  generalize e.charges.zip (e.jacobians.zip e.positions) = L at *
  induction L with
  | nil => simp
  | cons x L ih =>
    simp only [List.map_cons, List.sum_cons]
    have h1 := ih (fun y hy => hl y (List.mem_cons_of_mem _ hy))
    have h2 := inner x.1 _ (hl x List.mem_cons_self)
    refine le_trans ?_ (add_le_add h2 h1)
    refine le_trans (le_of_eq ?_) (abs_add_le _ _)
    congr 1; ring

theorem absSuperpose_mono {P : Type} (e : EffCharges P) {B C : P → ℝ} (h : ∀ row ∈ e.positions, ∀ q ∈ row, B q ≤ C q) :
    absSuperpose B e ≤ absSuperpose C e := by
  unfold absSuperpose
  refine List.sum_le_sum ?_
  rintro ⟨c, js, ps⟩ hx
  refine List.sum_le_sum ?_
  rintro ⟨j, q⟩ hy
  exact mul_le_mul_of_nonneg_left (h ps (List.of_mem_zip (List.of_mem_zip hx).2).2 q (List.of_mem_zip hy).2) (by positivity)

theorem absSuperpose_lin {P : Type} (e : EffCharges P) (B C : P → ℝ) :
    absSuperpose (fun q => B q + C q) e = absSuperpose B e + absSuperpose C e := by
  unfold absSuperpose
  have inner : ∀ (c : ℝ) (l : List (ℝ × P)), (l.map (fun y => |c| * |y.1| * (B y.2 + C y.2))).sum =
      (l.map (fun y => |c| * |y.1| * B y.2)).sum + (l.map (fun y => |c| * |y.1| * C y.2)).sum := by
    intro c l
    induction l with
    | nil => simp
    | cons y l ih => simp only [List.map_cons, List.sum_cons, ih]; ring
  simp only [inner]
  induction e.charges.zip (e.jacobians.zip e.positions) with
  | nil => simp
  | cons y l ih => simp only [List.map_cons, List.sum_cons, ih]; ring

theorem absSuperpose_mul {P : Type} (e : EffCharges P) (k : ℝ) (B : P → ℝ) :
    absSuperpose (fun q => k * B q) e = k * absSuperpose B e := by
  unfold absSuperpose
  have inner : ∀ (c : ℝ) (l : List (ℝ × P)), (l.map (fun y => |c| * |y.1| * (k * B y.2))).sum =
      k * (l.map (fun y => |c| * |y.1| * B y.2)).sum := by
    intro c l
    induction l with
    | nil => simp
    | cons y l ih => simp only [List.map_cons, List.sum_cons, ih]; ring
  simp only [inner]
  induction e.charges.zip (e.jacobians.zip e.positions) with
  | nil => simp
  | cons y l ih => simp only [List.map_cons, List.sum_cons, ih]; ring

/-! ## One ring -/

theorem axisDist_eq (p : V3) : norm2d p.x p.y = axisDist p := by unfold norm2d axisDist; rw [sq, sq]

theorem ringNear_eq (r z : ℝ) (p : V3) : ringNear r z p = √(nearSq (axisDist p) p.z r z) := by
  unfold ringNear nearSq; congr 1; ring

theorem ringFar_eq (r z : ℝ) (p : V3) : ringFar r z p = √(farSq (axisDist p) p.z r z) := by
  unfold ringFar farSq; congr 1; ring

theorem ellK_ge {p : ℝ} (hp : 0 < p) (h1 : p ≤ 1) : π / 2 ≤ ellK p := by
  have hi : Continuous (fun θ => 1 / √(ellD p θ)) := Continuous.div continuous_const (continuous_sqrt_ellD p) (fun θ => sqrt_ellD_ne hp θ)
  have h : ∫ θ in (0 : ℝ)..π / 2, (1:ℝ) ≤ ∫ θ in (0 : ℝ)..π / 2, 1 / √(ellD p θ) := by
    refine intervalIntegral.integral_mono_on (by positivity) (continuous_const.intervalIntegrable _ _) (hi.intervalIntegrable _ _) ?_
    intro θ _
    rw [le_div_iff₀ (Real.sqrt_pos.2 (ellD_pos hp θ)), one_mul]
    refine Real.sqrt_le_one.2 ?_
    unfold ellD
    nlinarith [sin_sq_add_cos_sq θ, sq_nonneg (sin θ)]
  rw [intervalIntegral.integral_const, sub_zero, smul_eq_mul, mul_one] at h
  exact h

theorem ratio_mem {u v r z : ℝ} (hu : 0 ≤ u) (hr : 0 ≤ r) (hn : 0 < nearSq u v r z) :
    0 < nearSq u v r z / farSq u v r z ∧ nearSq u v r z / farSq u v r z ≤ 1 := by
  have hf : 0 < farSq u v r z := lt_of_lt_of_le hn (near_le_far hu hr)
  exact ⟨div_pos hn hf, (div_le_one hf).2 (near_le_far hu hr)⟩

/-- **C75** (one ring). The potential of a ring is computed with a relative error of at most `4·10⁻¹³`. -/
theorem C75_ring_potential (p : V3) (r z : ℝ) (hr : 0 < r) (hoff : OffRing p r z) :
    |potentialRadialRing (axisDist p) p.z r z - ringPotential r z p| ≤ 4e-13 * ringPotential r z p := by
  rw [← C68_ring_potential p r z hr hoff, ← axisDist_eq]
  have hn := nearSq_pos hoff
  have hu := norm2d_nonneg p.x p.y
  set u := norm2d p.x p.y
  set v := p.z
  have hf : 0 < farSq u v r z := lt_of_lt_of_le hn (near_le_far hu hr.le)
  obtain ⟨q0, q1⟩ := ratio_mem hu hr.le hn
  have hK := ellipkm1_accurate q0 q1
  have hge := ellK_ge q0 q1
  have e : ∀ K : ℝ → ℝ, potentialRingWith K u v r z = K (nearSq u v r z / farSq u v r z) * (r / (π * √(farSq u v r z))) := by
    intro K
    unfold potentialRingWith
    simp only
    have e1 : ((z - v) ^ 2 + (r - u) ^ 2) / ((z - v) ^ 2 + (r - u) ^ 2 + 4 * u * (r - u) + 4 * u ^ 2) = nearSq u v r z / farSq u v r z := by
      unfold nearSq farSq; congr 1; ring
    have e2 : (z - v) ^ 2 + (r - u + 2 * u) ^ 2 = farSq u v r z := by unfold farSq; ring
    rw [e1, e2]
    have := Real.pi_pos.ne'
    have hs2 := (Real.sqrt_pos.2 hf).ne'
    field_simp
    ring
  unfold potentialRadialRing
  rw [e, e, ← sub_mul, abs_mul, abs_of_pos (show 0 < r / (π * √(farSq u v r z)) from
    div_pos hr (mul_pos Real.pi_pos (Real.sqrt_pos.2 hf))), ← mul_assoc]
  refine mul_le_mul_of_nonneg_right ?_ (by positivity)
  have hpi := Real.pi_gt_d2
  refine hK.trans ?_
  norm_num
  linarith

/-- **C75** (potential). For every distribution of charged rings and every point not on one of them, the potential differs from the
superposition of the potentials of uniformly charged rings by at most `4·10⁻¹³` of the superposition of the absolute values. -/
theorem C75_potential (e : EffCharges (ℝ × ℝ)) (p : V3) (hoff : ∀ row ∈ e.positions, ∀ q ∈ row, 0 < q.1 ∧ OffRing p q.1 q.2) :
    |potentialRadial p e - ringsPotential e p| ≤ 4e-13 * absSuperpose (fun q => ringPotential q.1 q.2 p) e := by
  have e1 : ringsPotential e p = e.loop (fun q => ringPotential q.1 q.2 p) := by rw [EffCharges.loop_eq]; rfl
  rw [e1, ← absSuperpose_mul]
  unfold potentialRadial
  refine abs_loop_sub_le e ?_
  intro row hrow q hq
  rw [axisDist_eq]
  exact C75_ring_potential p q.1 q.2 (hoff row hrow q hq).1 (hoff row hrow q hq).2

theorem isGradient_ringPotential_formula (p : V3) (r z : ℝ) (hr : 0 < r) (hoff : OffRing p r z)
    (hax : p.x = 0 ∧ p.y = 0 ∨ 1e-10 ≤ axisDist p) :
    IsGradient (ringPotential r z) (fromRadial p (dr1RingWith ellK ellE (norm2d p.x p.y) p.z r z) (dz1RingWith ellE (norm2d p.x p.y) p.z r z)) p := by
  have hg : IsGradient (fun q => potentialRingWith ellK (norm2d q.x q.y) q.z r z)
      (fromRadial p (dr1RingWith ellK ellE (norm2d p.x p.y) p.z r z) (dz1RingWith ellE (norm2d p.x p.y) p.z r z)) p := by
    rcases hax with ⟨hx, hy⟩ | hax
    · exact isGradient_ring_axis p r z hr hx hy
    · exact isGradient_ring isEllipticPair p r z hr hoff (by rw [axisDist_eq]; exact hax)
  have hopen : IsOpen {v : ℝ × ℝ × ℝ | 0 < nearSq (norm2d v.1 v.2.1) v.2.2 r z} := by
    apply isOpen_lt continuous_const
    unfold nearSq norm2d
    fun_prop
  rw [isGradient_iff] at hg ⊢
  refine hg.congr_of_eventuallyEq ?_
  filter_upwards [hopen.mem_nhds ((offRing_iff hr.le).1 hoff : (p.x, p.y, p.z) ∈ {v : ℝ × ℝ × ℝ | 0 < nearSq (norm2d v.1 v.2.1) v.2.2 r z})] with v hv
  exact (C68_ring_potential ⟨v.1, v.2.1, v.2.2⟩ r z hr ((offRing_iff hr.le).2 hv)).symm

/-- `(z - v)² + |r² - u²|` is at most the product of the distances -/
theorem mixed_le {u v r z : ℝ} : |(u - r) * (u + r)| + (z - v) ^ 2 ≤ √(nearSq u v r z) * √(farSq u v r z) := by
  rw [← Real.sqrt_mul (by unfold nearSq; positivity)]
  apply Real.le_sqrt_of_sq_le
  unfold nearSq farSq
  rw [abs_mul]
  have h1 : |u - r| ^ 2 = (r - u) ^ 2 := by rw [sq_abs]; ring
  have h2 : |u + r| ^ 2 = (r + u) ^ 2 := by rw [sq_abs]; ring
  rw [← h1, ← h2]
  nlinarith [sq_nonneg ((z - v) * (|u - r| - |u + r|))]

theorem dr1_err {u v r z : ℝ} (hu : 1e-10 ≤ u) (hr : 0 < r) (hn : 0 < nearSq u v r z) :
    |dr1PotentialRadialRing u v r z - dr1RingWith ellK ellE u v r z| ≤ 2e-13 * (r / (u * √(nearSq u v r z))) := by
  have hu0 : 0 < u := lt_of_lt_of_le (by norm_num) hu
  have hf : 0 < farSq u v r z := lt_of_lt_of_le hn (near_le_far hu0.le hr.le)
  obtain ⟨q0, q1⟩ := ratio_mem hu0.le hr.le hn
  have hK := ellipkm1_accurate q0 q1
  have hE := ellipem1_accurate q0 q1
  have hs := Real.sqrt_pos.2 hf
  have hn' := Real.sqrt_pos.2 hn
  have hpi := Real.pi_pos
  have e : ∀ K E : ℝ → ℝ, dr1RingWith K E u v r z = -(1 / π * (r / (2 * u * √(farSq u v r z))) *
      (K (nearSq u v r z / farSq u v r z) + ((u - r) * (u + r) - (z - v) ^ 2) / nearSq u v r z * E (nearSq u v r z / farSq u v r z))) := by
    intro K E
    unfold dr1RingWith
    rw [if_neg (by unfold minDistanceAxis; exact not_lt.2 hu)]
    simp only
    have e1 : ((z - v) * (z - v) + (r - u) * (r - u)) / (4 * r * r - 4 * (r - u) * r + (z - v) * (z - v) + (r - u) * (r - u)) = nearSq u v r z / farSq u v r z := by
      unfold nearSq farSq; congr 1 <;> ring
    have e2 : 4 * r * r - 4 * (r - u) * r + (z - v) * (z - v) + (r - u) * (r - u) = farSq u v r z := by unfold farSq; ring
    have e6 : -2 * (r - u) * (r - u) * r + (z - v) * (z - v) * (2 * (r - u) - 2 * r) + 2 * (r - u) * (r - u) * (r - u) = -(2 * u * nearSq u v r z) := by unfold nearSq; ring
    have e7 : (z - v) * (z - v) * r + (r - u) * (r - u) * r = nearSq u v r z * r := by unfold nearSq; ring
    rw [e1, e2, e6, e7]
    field_simp
    ring
  unfold dr1PotentialRadialRing
  rw [e, e]
  set c := ((u - r) * (u + r) - (z - v) ^ 2) / nearSq u v r z with hc
  set t := nearSq u v r z / farSq u v r z
  have hcb : |c| ≤ √(farSq u v r z) / √(nearSq u v r z) := by
    rw [hc, abs_div, abs_of_pos hn, div_le_div_iff₀ hn hn']
    have h := mixed_le (u := u) (v := v) (r := r) (z := z)
    have h2 : |(u - r) * (u + r) - (z - v) ^ 2| ≤ √(nearSq u v r z) * √(farSq u v r z) := by
      refine (abs_sub _ _).trans ?_
      rw [abs_of_nonneg (sq_nonneg (z - v))]
      exact h
    have h3 : √(nearSq u v r z) * √(nearSq u v r z) = nearSq u v r z := Real.mul_self_sqrt hn.le
    calc _ ≤ √(nearSq u v r z) * √(farSq u v r z) * √(nearSq u v r z) := mul_le_mul_of_nonneg_right h2 hn'.le
      _ = √(farSq u v r z) * (√(nearSq u v r z) * √(nearSq u v r z)) := by ring
      _ = _ := by rw [h3]
  have hle : √(nearSq u v r z) ≤ √(farSq u v r z) := Real.sqrt_le_sqrt (near_le_far hu0.le hr.le)
  have h1 : (1:ℝ) ≤ √(farSq u v r z) / √(nearSq u v r z) := (one_le_div hn').2 hle
  have hin : |(ellipkm1 t - ellK t) + c * (ellipem1 t - ellE t)| ≤ 6 / 10 ^ 13 * (2 * (√(farSq u v r z) / √(nearSq u v r z))) := by
    refine (abs_add_le _ _).trans ?_
    rw [abs_mul]
    nlinarith [mul_le_mul hcb hE (abs_nonneg _) (by positivity)]
  rw [show -(1 / π * (r / (2 * u * √(farSq u v r z))) * (ellipkm1 t + c * ellipem1 t)) - -(1 / π * (r / (2 * u * √(farSq u v r z))) * (ellK t + c * ellE t)) =
    -(1 / π * (r / (2 * u * √(farSq u v r z))) * ((ellipkm1 t - ellK t) + c * (ellipem1 t - ellE t))) by ring, abs_neg, abs_mul,
    abs_of_pos (show 0 < 1 / π * (r / (2 * u * √(farSq u v r z))) by positivity)]
  refine (mul_le_mul_of_nonneg_left hin (by positivity)).trans ?_
  have e3 : 1 / π * (r / (2 * u * √(farSq u v r z))) * (6 / 10 ^ 13 * (2 * (√(farSq u v r z) / √(nearSq u v r z)))) =
      6 / 10 ^ 13 / π * (r / (u * √(nearSq u v r z))) := by field_simp
  rw [e3]
  refine mul_le_mul_of_nonneg_right ?_ (by positivity)
  rw [div_le_iff₀ hpi]
  have := Real.pi_gt_d2
  norm_num
  linarith

theorem dz1_err {u v r z : ℝ} (hu : 0 ≤ u) (hr : 0 < r) (hn : 0 < nearSq u v r z) :
    |dz1PotentialRadialRing u v r z - dz1RingWith ellE u v r z| ≤ 2e-13 * (r / (√(farSq u v r z) * √(nearSq u v r z))) := by
  have hf : 0 < farSq u v r z := lt_of_lt_of_le hn (near_le_far hu hr.le)
  obtain ⟨q0, q1⟩ := ratio_mem hu hr.le hn
  have hE := ellipem1_accurate q0 q1
  have hs := Real.sqrt_pos.2 hf
  have hn' := Real.sqrt_pos.2 hn
  have hpi := Real.pi_pos
  have e : ∀ E : ℝ → ℝ, dz1RingWith E u v r z = 1 / π * ((z - v) * r) / (nearSq u v r z * √(farSq u v r z)) * E (nearSq u v r z / farSq u v r z) := by
    intro E
    unfold dz1RingWith
    simp only
    have e3 : ((z - v) * (z - v) + (r - u) * (r - u)) / (4 * u * u + 4 * (r - u) * u + (z - v) * (z - v) + (r - u) * (r - u)) = nearSq u v r z / farSq u v r z := by
      unfold nearSq farSq; congr 1 <;> ring
    have e4 : 4 * u * u + 4 * (r - u) * u + (z - v) * (z - v) + (r - u) * (r - u) = farSq u v r z := by unfold farSq; ring
    have e5 : (z - v) * (z - v) + (r - u) * (r - u) = nearSq u v r z := by unfold nearSq; ring
    rw [e3, e4, e5]
    ring
  unfold dz1PotentialRadialRing
  rw [e, e, ← mul_sub, abs_mul]
  have hz : |z - v| ≤ √(nearSq u v r z) := by
    apply Real.abs_le_sqrt
    unfold nearSq
    nlinarith [sq_nonneg (r - u)]
  have h3 : √(nearSq u v r z) * √(nearSq u v r z) = nearSq u v r z := Real.mul_self_sqrt hn.le
  have hfac : |1 / π * ((z - v) * r) / (nearSq u v r z * √(farSq u v r z))| ≤ 1 / π * (r / (√(farSq u v r z) * √(nearSq u v r z))) := by
    rw [abs_div, abs_mul, abs_mul, abs_of_pos hr, abs_of_pos (show 0 < 1 / π by positivity), abs_of_pos (show 0 < nearSq u v r z * √(farSq u v r z) by positivity)]
    rw [mul_div_assoc]
    refine mul_le_mul_of_nonneg_left ?_ (by positivity)
    rw [div_le_div_iff₀ (by positivity) (by positivity)]
    calc |z - v| * r * (√(farSq u v r z) * √(nearSq u v r z)) ≤ √(nearSq u v r z) * r * (√(farSq u v r z) * √(nearSq u v r z)) := by gcongr
      _ = r * ((√(nearSq u v r z) * √(nearSq u v r z)) * √(farSq u v r z)) := by ring
      _ = _ := by rw [h3]
  refine (mul_le_mul hfac hE (abs_nonneg _) (by positivity)).trans ?_
  have hp2 := Real.pi_gt_d2
  have : 1 / π * (r / (√(farSq u v r z) * √(nearSq u v r z))) * (6 / 10 ^ 13) = 6 / 10 ^ 13 / π * (r / (√(farSq u v r z) * √(nearSq u v r z))) := by ring
  rw [this]
  refine mul_le_mul_of_nonneg_right ?_ (by positivity)
  rw [div_le_iff₀ hpi]
  norm_num
  linarith

/-! ## The whole field -/

theorem norm_fromRadial_le {p : V3} (a b : ℝ) : V3.norm (fromRadial p a b) ≤ |a| + |b| := by
  have key : ∀ x y z c : ℝ, x ^ 2 + y ^ 2 ≤ c ^ 2 → 0 ≤ c → V3.norm ⟨x, y, z⟩ ≤ c + |z| := by
    intro x y z c h hc
    unfold V3.norm dot
    apply Real.sqrt_le_iff.2
    refine ⟨by positivity, ?_⟩
    simp only
    nlinarith [sq_abs z, abs_nonneg z, mul_nonneg hc (abs_nonneg z)]
  unfold fromRadial
  split
  · rename_i h
    have h0 : 0 < norm2d p.x p.y := lt_of_lt_of_le (by unfold minDistanceAxis; norm_num) h
    apply key _ _ _ _ _ (abs_nonneg _)
    rw [sq_abs]
    have : norm2d p.x p.y ^ 2 = p.x ^ 2 + p.y ^ 2 := by
      unfold norm2d; rw [Real.sq_sqrt (add_nonneg (mul_self_nonneg _) (mul_self_nonneg _))]; ring
    have e : (p.x / norm2d p.x p.y * a) ^ 2 + (p.y / norm2d p.x p.y * a) ^ 2 = (p.x ^ 2 + p.y ^ 2) / norm2d p.x p.y ^ 2 * a ^ 2 := by
      field_simp
    rw [e, this, div_self (by rw [← this]; positivity), one_mul]
  · refine (key 0 0 b 0 (by simp) le_rfl).trans ?_
    linarith [abs_nonneg a]

theorem fromRadial_sub (p : V3) (a b a' b' : ℝ) : fromRadial p a b - fromRadial p a' b' = fromRadial p (a - a') (b - b') := by
  unfold fromRadial
  split <;> ext <;> simp <;> ring

/-- The field of the superposition, in cylinder coordinates. -/
theorem ringsPotential_gradient (e : EffCharges (ℝ × ℝ)) (p : V3) (hoff : ∀ row ∈ e.positions, ∀ q ∈ row, 0 < q.1 ∧ OffRing p q.1 q.2)
    (hax : p.x = 0 ∧ p.y = 0 ∨ 1e-10 ≤ axisDist p) :
    IsGradient (ringsPotential e) (-fieldRadialWith ellK ellE p e) p := by
  have hg : ∀ row ∈ e.positions, ∀ q ∈ row, IsGradient (fun s => ringPotential q.1 q.2 s)
      (fromRadial p (dr1RingWith ellK ellE (norm2d p.x p.y) p.z q.1 q.2) (dz1RingWith ellE (norm2d p.x p.y) p.z q.1 q.2)) p := by
    intro row hr q hq
    exact isGradient_ringPotential_formula p q.1 q.2 (hoff row hr q hq).1 (hoff row hr q hq).2 hax
  have h := IsGradient.loop e (fun s q => ringPotential q.1 q.2 s) _ p hg
  have e1 : (fun s => e.loop (fun q => ringPotential q.1 q.2 s)) = ringsPotential e := by
    funext s; rw [EffCharges.loop_eq]; rfl
  rw [e1] at h
  refine h.eq ?_
  unfold fieldRadialWith fromRadial
  simp only [EffCharges.loopSub_loop]
  split
  · ext
    · have := loop_lin e (fun q => dr1RingWith ellK ellE (norm2d p.x p.y) p.z q.1 q.2) (fun _ => 0) (p.x / norm2d p.x p.y) 0
      simp only [mul_zero, add_zero, zero_mul] at this
      simp only [neg_x, this]; ring
    · have := loop_lin e (fun q => dr1RingWith ellK ellE (norm2d p.x p.y) p.z q.1 q.2) (fun _ => 0) (p.y / norm2d p.x p.y) 0
      simp only [mul_zero, add_zero, zero_mul] at this
      simp only [neg_y, this]; ring
    · simp
  · ext
    · simp [loop_zero]
    · simp [loop_zero]
    · simp

theorem axis_le_far {u v r z : ℝ} (hu : 0 ≤ u) (hr : 0 ≤ r) : u ≤ √(farSq u v r z) := by
  apply Real.le_sqrt_of_sq_le
  unfold farSq
  nlinarith [sq_nonneg (z - v), mul_nonneg hu hr]

/-- **C75** (field). For every distribution of charged rings and every point not on one of them that is at least `1e-10` from the axis, the
field differs from minus the gradient of the potential of the rings by at most `4·10⁻¹³` times the sum of |charge| · r / (ρ d), where r is
the radius of the ring, ρ the distance of the point to the axis and d its distance to the ring. -/
theorem C75_field (e : EffCharges (ℝ × ℝ)) (p : V3) (hoff : ∀ row ∈ e.positions, ∀ q ∈ row, 0 < q.1 ∧ OffRing p q.1 q.2)
    (hax : 1e-10 ≤ axisDist p) :
    ∃ G, IsGradient (ringsPotential e) G p ∧
      V3.norm (fieldRadial p e - -G) ≤ 4e-13 * absSuperpose (fun q => q.1 / (axisDist p * ringNear q.1 q.2 p)) e := by
  refine ⟨_, ringsPotential_gradient e p hoff (.inr hax), ?_⟩
  have e0 : -(-fieldRadialWith ellK ellE p e) = fieldRadialWith ellK ellE p e := by ext <;> simp
  rw [e0]
  unfold fieldRadial fieldRadialWith
  rw [fromRadial_sub]
  refine (norm_fromRadial_le _ _).trans ?_
  simp only [EffCharges.loopSub_loop]
  have neg : ∀ a b : ℝ, |-a - -b| = |a - b| := by intro a b; rw [← abs_neg]; congr 1; ring
  rw [neg, neg]
  have hu0 : 0 < axisDist p := lt_of_lt_of_le (by norm_num) hax
  have h1 := abs_loop_sub_le e (f := fun q => dr1PotentialRadialRing (norm2d p.x p.y) p.z q.1 q.2) (g := fun q => dr1RingWith ellK ellE (norm2d p.x p.y) p.z q.1 q.2)
    (B := fun q => 2e-13 * (q.1 / (axisDist p * ringNear q.1 q.2 p))) (by
      intro row hr q hq
      obtain ⟨hq1, hq2⟩ := hoff row hr q hq
      have hn := nearSq_pos hq2
      rw [axisDist_eq] at hn ⊢
      rw [ringNear_eq]
      exact dr1_err hax hq1 hn)
  have h2 := abs_loop_sub_le e (f := fun q => dz1PotentialRadialRing (norm2d p.x p.y) p.z q.1 q.2) (g := fun q => dz1RingWith ellE (norm2d p.x p.y) p.z q.1 q.2)
    (B := fun q => 2e-13 * (q.1 / (axisDist p * ringNear q.1 q.2 p))) (by
      intro row hr q hq
      obtain ⟨hq1, hq2⟩ := hoff row hr q hq
      have hn := nearSq_pos hq2
      rw [axisDist_eq] at hn ⊢
      rw [ringNear_eq]
      refine (dz1_err hu0.le hq1 hn).trans ?_
      have hle := axis_le_far (v := p.z) (z := q.2) hu0.le hq1.le
      have hn' := Real.sqrt_pos.2 hn
      gcongr)
  refine (add_le_add h1 h2).trans (le_of_eq ?_)
  rw [absSuperpose_mul]
  ring

/-- **C75** (field on the axis). On the axis, the field differs from minus the gradient of the potential of the rings by at most
`2·10⁻¹³` times the sum of |charge| · r / d². -/
theorem C75_field_axis (e : EffCharges (ℝ × ℝ)) (p : V3) (hpos : ∀ row ∈ e.positions, ∀ q ∈ row, 0 < q.1) (hx : p.x = 0) (hy : p.y = 0) :
    ∃ G, IsGradient (ringsPotential e) G p ∧
      V3.norm (fieldRadial p e - -G) ≤ 2e-13 * absSuperpose (fun q => q.1 / ringNear q.1 q.2 p ^ 2) e := by
  have ha : axisDist p = 0 := by unfold axisDist; simp [hx, hy]
  have hoff : ∀ row ∈ e.positions, ∀ q ∈ row, 0 < q.1 ∧ OffRing p q.1 q.2 := by
    intro row hr q hq
    have h0 := hpos row hr q hq
    refine ⟨h0, (offRing_iff h0.le).2 ?_⟩
    rw [axisDist_eq, ha]
    unfold nearSq
    nlinarith [sq_nonneg (q.2 - p.z), mul_pos h0 h0]
  refine ⟨_, ringsPotential_gradient e p hoff (.inl ⟨hx, hy⟩), ?_⟩
  have e0 : -(-fieldRadialWith ellK ellE p e) = fieldRadialWith ellK ellE p e := by ext <;> simp
  rw [e0]
  unfold fieldRadial fieldRadialWith
  rw [fromRadial_sub]
  have e1 : ∀ a b : ℝ, V3.norm (fromRadial p a b) ≤ |b| := by
    intro a b
    have : fromRadial p a b = fromRadial p 0 b := by
      unfold fromRadial
      rw [axisDist_eq, ha, if_neg (by unfold minDistanceAxis; norm_num)]
      rw [if_neg (by unfold minDistanceAxis; norm_num)]
    rw [this]
    exact (norm_fromRadial_le 0 b).trans (by simp)
  refine (e1 _ _).trans ?_
  simp only [EffCharges.loopSub_loop]
  have neg : ∀ a b : ℝ, |-a - -b| = |a - b| := by intro a b; rw [← abs_neg]; congr 1; ring
  rw [neg, ← absSuperpose_mul]
  refine abs_loop_sub_le e ?_
  intro row hr q hq
  obtain ⟨hq1, hq2⟩ := hoff row hr q hq
  have hn := nearSq_pos hq2
  rw [axisDist_eq] at hn ⊢
  refine (dz1_err (by rw [ha]) hq1 hn).trans (le_of_eq ?_)
  rw [ringNear_eq, ha]
  have : farSq 0 p.z q.1 q.2 = nearSq 0 p.z q.1 q.2 := by unfold farSq nearSq; ring
  rw [this, sq]

/-! ## Currents -/

theorem current_err {u v r z : ℝ} (hu : 0 ≤ u) (hr : 1e-10 ≤ r) (hn : 0 < nearSq u v r z) :
    (1e-10 ≤ u → |(currentFieldRadialRing u v r z).1 - (currentFieldRingWith (fun k => ellK (1 - k)) (fun k => ellE (1 - k)) u v r z).1| ≤
      2e-13 * (√(farSq u v r z) / (u * √(nearSq u v r z)))) ∧
    |(currentFieldRadialRing u v r z).2 - (currentFieldRingWith (fun k => ellK (1 - k)) (fun k => ellE (1 - k)) u v r z).2| ≤
      2e-13 * (1 / √(nearSq u v r z)) := by
  have hr0 : 0 < r := lt_of_lt_of_le (by norm_num) hr
  have hf : 0 < farSq u v r z := lt_of_lt_of_le hn (near_le_far hu hr0.le)
  obtain ⟨q0, q1⟩ := ratio_mem hu hr0.le hn
  have hK := ellipkm1_accurate q0 q1
  have hE := ellipem1_accurate q0 q1
  have hs := Real.sqrt_pos.2 hf
  have hn' := Real.sqrt_pos.2 hn
  have hs2 : √(farSq u v r z) * √(farSq u v r z) = farSq u v r z := Real.mul_self_sqrt hf.le
  have hn2 : √(nearSq u v r z) * √(nearSq u v r z) = nearSq u v r z := Real.mul_self_sqrt hn.le
  have hle : √(nearSq u v r z) ≤ √(farSq u v r z) := Real.sqrt_le_sqrt (near_le_far hu hr0.le)
  have hpi := Real.pi_pos
  have hp2 := Real.pi_gt_d2
  have hk : 1 - 4 * u * r / farSq u v r z = nearSq u v r z / farSq u v r z := by
    rw [eq_div_iff hf.ne', sub_mul, div_mul_cancel₀ _ hf.ne']; unfold nearSq farSq; ring
  have hk0 : 0 ≤ 4 * u * r / farSq u v r z := by positivity
  have hk1 : 4 * u * r / farSq u v r z ≤ 1 := by linarith
  have eA : (v - z) ^ 2 + (r + u) ^ 2 = farSq u v r z := by unfold farSq; ring
  have eB : (v - z) ^ 2 + (u - r) ^ 2 = nearSq u v r z := by unfold nearSq; ring
  unfold currentFieldRadialRing currentFieldRingWith
  simp only [eA, eB]
  rw [(ellipk_complementary hk0 hk1).1, (ellipk_complementary hk0 hk1).2, hk]
  rw [if_neg (show ¬r < minDistanceAxis by unfold minDistanceAxis; exact not_lt.2 hr),
    if_neg (show ¬r < minDistanceAxis by unfold minDistanceAxis; exact not_lt.2 hr)]
  set t := nearSq u v r z / farSq u v r z
  simp only
  constructor
  · intro hu1
    have hu0 : 0 < u := lt_of_lt_of_le (by norm_num) hu1
    rw [if_neg (show ¬u < minDistanceAxis by unfold minDistanceAxis; exact not_lt.2 hu1),
      if_neg (show ¬u < minDistanceAxis by unfold minDistanceAxis; exact not_lt.2 hu1)]
    set c := ((v - z) ^ 2 + u ^ 2 + r ^ 2) / nearSq u v r z with hc
    have hc0 : 0 ≤ c := by positivity
    have h1 : c + 1 ≤ 2 * (farSq u v r z / nearSq u v r z) := by
      rw [hc, ← mul_div_assoc, div_add_one hn.ne', div_le_div_iff_of_pos_right hn]
      unfold nearSq farSq
      nlinarith [sq_nonneg (z - v), mul_nonneg hu hr0.le, sq_nonneg u, sq_nonneg r]
    have hin : |c * (ellipem1 t - ellE t) - (ellipkm1 t - ellK t)| ≤ 6 / 10 ^ 13 * (2 * (farSq u v r z / nearSq u v r z)) := by
      refine (abs_sub _ _).trans ?_
      rw [abs_mul, abs_of_nonneg hc0]
      nlinarith [mul_le_mul_of_nonneg_left hE hc0]
    rw [show 1 / π * (v - z) / (2 * u * √(farSq u v r z)) * (c * ellipem1 t - ellipkm1 t) - 1 / π * (v - z) / (2 * u * √(farSq u v r z)) * (c * ellE t - ellK t) =
      1 / π * (v - z) / (2 * u * √(farSq u v r z)) * (c * (ellipem1 t - ellE t) - (ellipkm1 t - ellK t)) by ring, abs_mul]
    have hz : |v - z| ≤ √(nearSq u v r z) := by
      apply Real.abs_le_sqrt
      unfold nearSq
      nlinarith [sq_nonneg (r - u)]
    have hfac : |1 / π * (v - z) / (2 * u * √(farSq u v r z))| ≤ 1 / π * (√(nearSq u v r z) / (2 * u * √(farSq u v r z))) := by
      rw [abs_div, abs_mul, abs_of_pos (show 0 < 1 / π by positivity), abs_of_pos (show 0 < 2 * u * √(farSq u v r z) by positivity), mul_div_assoc]
      gcongr
    refine (mul_le_mul hfac hin (abs_nonneg _) (by positivity)).trans ?_
    have e3 : 1 / π * (√(nearSq u v r z) / (2 * u * √(farSq u v r z))) * (6 / 10 ^ 13 * (2 * (farSq u v r z / nearSq u v r z))) =
        6 / 10 ^ 13 / π * (√(farSq u v r z) / (u * √(nearSq u v r z))) := by
      generalize √(farSq u v r z) = a at *
      generalize √(nearSq u v r z) = b at *
      rw [← hs2, ← hn2]
      field_simp
    rw [e3]
    refine mul_le_mul_of_nonneg_right ?_ (by positivity)
    rw [div_le_iff₀ hpi]
    norm_num
    linarith
  · set c := (r ^ 2 - (v - z) ^ 2 - u ^ 2) / nearSq u v r z with hc
    have hcb : |c| ≤ √(farSq u v r z) / √(nearSq u v r z) := by
      rw [hc, abs_div, abs_of_pos hn, div_le_div_iff₀ hn hn']
      have h := mixed_le (u := u) (v := v) (r := r) (z := z)
      have h2 : |r ^ 2 - (v - z) ^ 2 - u ^ 2| ≤ √(nearSq u v r z) * √(farSq u v r z) := by
        rw [show r ^ 2 - (v - z) ^ 2 - u ^ 2 = -((u - r) * (u + r)) - (z - v) ^ 2 by ring]
        refine (abs_sub _ _).trans ?_
        rw [abs_neg, abs_of_nonneg (sq_nonneg (z - v))]
        exact h
      calc _ ≤ √(nearSq u v r z) * √(farSq u v r z) * √(nearSq u v r z) := mul_le_mul_of_nonneg_right h2 hn'.le
        _ = √(farSq u v r z) * (√(nearSq u v r z) * √(nearSq u v r z)) := by ring
        _ = _ := by rw [hn2]
    have h1 : (1:ℝ) ≤ √(farSq u v r z) / √(nearSq u v r z) := (one_le_div hn').2 hle
    have hin : |c * (ellipem1 t - ellE t) + (ellipkm1 t - ellK t)| ≤ 6 / 10 ^ 13 * (2 * (√(farSq u v r z) / √(nearSq u v r z))) := by
      refine (abs_add_le _ _).trans ?_
      rw [abs_mul]
      nlinarith [mul_le_mul hcb hE (abs_nonneg _) (by positivity)]
    rw [show 1 / π * 1 / (2 * √(farSq u v r z)) * (c * ellipem1 t + ellipkm1 t) - 1 / π * 1 / (2 * √(farSq u v r z)) * (c * ellE t + ellK t) =
      1 / π * (1 / (2 * √(farSq u v r z))) * (c * (ellipem1 t - ellE t) + (ellipkm1 t - ellK t)) by ring, abs_mul,
      abs_of_pos (show 0 < 1 / π * (1 / (2 * √(farSq u v r z))) by positivity)]
    refine (mul_le_mul_of_nonneg_left hin (by positivity)).trans ?_
    have e3 : 1 / π * (1 / (2 * √(farSq u v r z))) * (6 / 10 ^ 13 * (2 * (√(farSq u v r z) / √(nearSq u v r z)))) =
        6 / 10 ^ 13 / π * (1 / √(nearSq u v r z)) := by field_simp
    rw [e3]
    refine mul_le_mul_of_nonneg_right ?_ (by positivity)
    rw [div_le_iff₀ hpi]
    norm_num
    linarith

/-- **C75** (currents). For every distribution of current rings (of radius at least `1e-10`) and every point not on one of them, the current field
differs from the field of the law of Biot and Savart by at most `4·10⁻¹³` times the sum of |current| · D / (ρ d), where D and d are the
largest and the smallest distance of the point to the ring and ρ is its distance to the axis (at least `1e-10`); on the axis by at most
`2·10⁻¹³` times the sum of |current| / d. -/
theorem C75_current_field (e : EffCharges V3) (p : V3) (hoff : ∀ row ∈ e.positions, ∀ q ∈ row, 1e-10 ≤ q.x ∧ OffRing p q.x q.z) :
    let B : V3 := ⟨e.loop (fun q => (ringField q.x q.z p).x), e.loop (fun q => (ringField q.x q.z p).y), e.loop (fun q => (ringField q.x q.z p).z)⟩
    (1e-10 ≤ axisDist p →
      V3.norm (currentField p e - B) ≤ 4e-13 * absSuperpose (fun q => ringFar q.x q.z p / (axisDist p * ringNear q.x q.z p)) e) ∧
    (p.x = 0 ∧ p.y = 0 → V3.norm (currentField p e - B) ≤ 2e-13 * absSuperpose (fun q => 1 / ringNear q.x q.z p) e) := by
  intro B
  have hB : (p.x = 0 ∧ p.y = 0 ∨ 1e-10 ≤ axisDist p) → B = currentFieldWith (fun k => ellK (1 - k)) (fun k => ellE (1 - k)) p e :=
    fun h => (C69_current_field e p hoff h).symm
  constructor
  · intro hax
    rw [hB (.inr hax)]
    unfold currentField currentFieldWith
    rw [fromRadial_sub]
    refine (norm_fromRadial_le _ _).trans ?_
    have hu0 : 0 < axisDist p := lt_of_lt_of_le (by norm_num) hax
    have h1 := abs_loop_sub_le e (f := fun q => (currentFieldRadialRing (norm2d p.x p.y) p.z q.x q.z).1)
      (g := fun q => (currentFieldRingWith (fun k => ellK (1 - k)) (fun k => ellE (1 - k)) (norm2d p.x p.y) p.z q.x q.z).1)
      (B := fun q => 2e-13 * (ringFar q.x q.z p / (axisDist p * ringNear q.x q.z p))) (by
        intro row hr q hq
        obtain ⟨hq1, hq2⟩ := hoff row hr q hq
        have hn := nearSq_pos hq2
        rw [axisDist_eq] at hn ⊢
        rw [ringNear_eq, ringFar_eq]
        exact (current_err hu0.le hq1 hn).1 hax)
    have h2 := abs_loop_sub_le e (f := fun q => (currentFieldRadialRing (norm2d p.x p.y) p.z q.x q.z).2)
      (g := fun q => (currentFieldRingWith (fun k => ellK (1 - k)) (fun k => ellE (1 - k)) (norm2d p.x p.y) p.z q.x q.z).2)
      (B := fun q => 2e-13 * (ringFar q.x q.z p / (axisDist p * ringNear q.x q.z p))) (by
        intro row hr q hq
        obtain ⟨hq1, hq2⟩ := hoff row hr q hq
        have hq0 : 0 < q.x := lt_of_lt_of_le (by norm_num) hq1
        have hn := nearSq_pos hq2
        rw [axisDist_eq] at hn ⊢
        rw [ringNear_eq, ringFar_eq]
        refine ((current_err hu0.le hq1 hn).2).trans ?_
        have hle := axis_le_far (v := p.z) (z := q.z) hu0.le hq0.le
        have hn' := Real.sqrt_pos.2 hn
        refine mul_le_mul_of_nonneg_left ?_ (by norm_num)
        rw [div_le_div_iff₀ hn' (by positivity), one_mul]
        exact mul_le_mul_of_nonneg_right hle hn'.le)
    refine (add_le_add h1 h2).trans (le_of_eq ?_)
    rw [absSuperpose_mul]
    ring
  · rintro ⟨hx, hy⟩
    have ha : axisDist p = 0 := by unfold axisDist; simp [hx, hy]
    rw [hB (.inl ⟨hx, hy⟩)]
    unfold currentField currentFieldWith
    rw [fromRadial_sub]
    have e1 : ∀ a b : ℝ, V3.norm (fromRadial p a b) ≤ |b| := by
      intro a b
      have : fromRadial p a b = fromRadial p 0 b := by
        unfold fromRadial
        rw [axisDist_eq, ha, if_neg (by unfold minDistanceAxis; norm_num)]
        rw [if_neg (by unfold minDistanceAxis; norm_num)]
      rw [this]
      exact (norm_fromRadial_le 0 b).trans (by simp)
    refine (e1 _ _).trans ?_
    rw [← absSuperpose_mul]
    refine abs_loop_sub_le e ?_
    intro row hr q hq
    obtain ⟨hq1, hq2⟩ := hoff row hr q hq
    have hn := nearSq_pos hq2
    rw [axisDist_eq] at hn ⊢
    rw [ringNear_eq]
    exact (current_err (by rw [ha]) hq1 hn).2

/-- Two rings with charges of opposite sign, and a point 5 from the axis: the hypotheses are met. -/
example : ∀ row ∈ (⟨2, [1, -1], [[1], [1]], [[(1, 0)], [(2, 1)]]⟩ : EffCharges (ℝ × ℝ)).positions, ∀ q ∈ row, 0 < q.1 ∧ OffRing ⟨3, 4, 0⟩ q.1 q.2 := by
  have h5 : norm2d 3 4 = 5 := by
    unfold norm2d
    rw [show (3 : ℝ) * 3 + 4 * 4 = 5 ^ 2 by norm_num]; exact Real.sqrt_sq (by norm_num)
  intro row hrow q hq
  simp only [List.mem_cons, List.not_mem_nil, or_false] at hrow
  rcases hrow with rfl | rfl
  · simp only [List.mem_cons, List.not_mem_nil, or_false] at hq
    subst hq
    refine ⟨by norm_num, ?_⟩
    rw [offRing_iff (by norm_num)]
    simp only [h5, nearSq]
    norm_num
  · simp only [List.mem_cons, List.not_mem_nil, or_false] at hq
    subst hq
    refine ⟨by norm_num, ?_⟩
    rw [offRing_iff (by norm_num)]
    simp only [h5, nearSq]
    norm_num

end Traceon
