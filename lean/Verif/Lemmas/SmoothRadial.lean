import Verif.Lemmas.Smooth

/-!
# Where the forces of the tracers of radially symmetric fields are smooth
-/
namespace Traceon
open Spec Set Filter Topology

variable {E : Type*} [NormedAddCommGroup E] [NormedSpace ℝ E] {n : ℕ∞}

theorem contDiffAt_chebSum {p L : E → ℝ} {y : E} (hp : ContDiffAt ℝ n p y) (hL : ContDiffAt ℝ n L y) (ab : List (ℝ × ℝ)) : ContDiffAt ℝ n (fun y => chebSum (p y) (L y) ab) y := by
  unfold chebSum
  have : ∀ (l : List (ℕ × ℝ × ℝ)) (s : E → ℝ), ContDiffAt ℝ n s y → ContDiffAt ℝ n (fun y => l.foldl (fun s t => s + (t.2.1 + L y * t.2.2) * p y ^ t.1) (s y)) y := by
    intro l
    induction l with
    | nil => intro s hs; exact hs
    | cons t l ih => intro s hs; exact ih (fun y => s y + (t.2.1 + L y * t.2.2) * p y ^ t.1) (by fun_prop)
  exact this _ (fun _ => 0) contDiffAt_const

theorem contDiffAt_logInv {p : E → ℝ} {y : E} (hp : ContDiffAt ℝ n p y) (h : 0 < p y) : ContDiffAt ℝ n (fun y => Real.log (1 / p y)) y := by
  have e : (fun y => Real.log (1 / p y)) = fun y => -Real.log (p y) := by funext y; rw [one_div, Real.log_inv]
  rw [e]
  exact (hp.log h.ne').neg

theorem contDiffAt_ellipkm1 {p : E → ℝ} {y : E} (hp : ContDiffAt ℝ n p y) (h : 0 < p y) : ContDiffAt ℝ n (fun y => ellipkm1 (p y)) y :=
  contDiffAt_chebSum hp (contDiffAt_logInv hp h) _

theorem contDiffAt_ellipem1 {p : E → ℝ} {y : E} (hp : ContDiffAt ℝ n p y) (h : 0 < p y) : ContDiffAt ℝ n (fun y => ellipem1 (p y)) y :=
  contDiffAt_chebSum hp (contDiffAt_logInv hp h) _

/-- The distance to a ring in the half plane. -/
theorem ring_dist_pos {r z a b : ℝ} (h : (r, z) ≠ (a, b)) : 0 < (b - z) * (b - z) + (a - r) * (a - r) := by
  have : b - z ≠ 0 ∨ a - r ≠ 0 := by
    by_contra hc
    push Not at hc
    exact h (Prod.ext (by simp; linarith [hc.2]) (by simp; linarith [hc.1]))
  rcases this with h | h <;> have := mul_self_pos.2 h <;> nlinarith [mul_self_nonneg (b - z), mul_self_nonneg (a - r)]

theorem contDiffAt_dz1Ring {r z : E → ℝ} {y : E} (hr : ContDiffAt ℝ n r y) (hz : ContDiffAt ℝ n z y) {a b : ℝ} (h : (r y, z y) ≠ (a, b)) (ha : 0 < a) (hry : 0 ≤ r y) :
    ContDiffAt ℝ n (fun y => dz1PotentialRadialRing (r y) (z y) a b) y := by
  have hd := ring_dist_pos h
  have hA : 0 < 4 * r y * r y + 4 * (a - r y) * r y + (b - z y) * (b - z y) + (a - r y) * (a - r y) := by
    have e : 4 * r y * r y + 4 * (a - r y) * r y + (b - z y) * (b - z y) + (a - r y) * (a - r y) = (a + r y) ^ 2 + (b - z y) * (b - z y) := by ring
    rw [e]
    have := mul_self_nonneg (b - z y)
    positivity
  have hAd : ContDiffAt ℝ n (fun y => 4 * r y * r y + 4 * (a - r y) * r y + (b - z y) * (b - z y) + (a - r y) * (a - r y)) y := by fun_prop
  have hc : ContDiffAt ℝ n (fun y => ((b - z y) * (b - z y) + (a - r y) * (a - r y)) / (4 * r y * r y + 4 * (a - r y) * r y + (b - z y) * (b - z y) + (a - r y) * (a - r y))) y :=
    ContDiffAt.div (by fun_prop) hAd hA.ne'
  have hE := contDiffAt_ellipem1 hc (div_pos hd hA)
  unfold dz1PotentialRadialRing dz1RingWith
  refine ContDiffAt.div ?_ (ContDiffAt.mul (by fun_prop) (hAd.sqrt hA.ne')) (mul_pos hd (Real.sqrt_pos.2 hA)).ne'
  exact contDiffAt_const.mul (((ContDiffAt.mul (by fun_prop) hE)).neg)

theorem contDiffAt_dr1Ring {r z : E → ℝ} {y : E} (hr : ContDiffAt ℝ n r y) (hz : ContDiffAt ℝ n z y) {a b : ℝ} (h : (r y, z y) ≠ (a, b)) (ha : 0 < a) (hry : minDistanceAxis < r y) :
    ContDiffAt ℝ n (fun y => dr1PotentialRadialRing (r y) (z y) a b) y := by
  have hr0 : 0 < r y := lt_trans (by norm_num [minDistanceAxis]) hry
  have hd := ring_dist_pos h
  have hA : 0 < 4 * a * a - 4 * (a - r y) * a + (b - z y) * (b - z y) + (a - r y) * (a - r y) := by
    have e : 4 * a * a - 4 * (a - r y) * a + (b - z y) * (b - z y) + (a - r y) * (a - r y) = (a + r y) ^ 2 + (b - z y) * (b - z y) := by ring
    rw [e]
    have := mul_self_nonneg (b - z y)
    positivity
  have hAd : ContDiffAt ℝ n (fun y => 4 * a * a - 4 * (a - r y) * a + (b - z y) * (b - z y) + (a - r y) * (a - r y)) y := by fun_prop
  have hc : ContDiffAt ℝ n (fun y => ((b - z y) * (b - z y) + (a - r y) * (a - r y)) / (4 * a * a - 4 * (a - r y) * a + (b - z y) * (b - z y) + (a - r y) * (a - r y))) y :=
    ContDiffAt.div (by fun_prop) hAd hA.ne'
  have hE := contDiffAt_ellipem1 hc (div_pos hd hA)
  have hK := contDiffAt_ellipkm1 hc (div_pos hd hA)
  have hden : (-2 * (a - r y) * (a - r y) * a) + (b - z y) * (b - z y) * (2 * (a - r y) - 2 * a) + 2 * (a - r y) * (a - r y) * (a - r y) ≠ 0 := by
    have e : (-2 * (a - r y) * (a - r y) * a) + (b - z y) * (b - z y) * (2 * (a - r y) - 2 * a) + 2 * (a - r y) * (a - r y) * (a - r y) =
        -2 * r y * ((b - z y) * (b - z y) + (a - r y) * (a - r y)) := by ring
    rw [e]
    exact mul_ne_zero (mul_ne_zero (by norm_num) hr0.ne') hd.ne'
  have hmain : ContDiffAt ℝ n (fun y => 1 / Real.pi * (((b - z y) * (b - z y) * a + (a - r y) * (a - r y) * a) *
        ellipkm1 (((b - z y) * (b - z y) + (a - r y) * (a - r y)) / (4 * a * a - 4 * (a - r y) * a + (b - z y) * (b - z y) + (a - r y) * (a - r y))) +
      ((-2 * (a - r y) * a * a) - (b - z y) * (b - z y) * a + (a - r y) * (a - r y) * a) *
        ellipem1 (((b - z y) * (b - z y) + (a - r y) * (a - r y)) / (4 * a * a - 4 * (a - r y) * a + (b - z y) * (b - z y) + (a - r y) * (a - r y)))) /
      (((-2 * (a - r y) * (a - r y) * a) + (b - z y) * (b - z y) * (2 * (a - r y) - 2 * a) + 2 * (a - r y) * (a - r y) * (a - r y)) *
        Real.sqrt (4 * a * a - 4 * (a - r y) * a + (b - z y) * (b - z y) + (a - r y) * (a - r y)))) y := by
    refine ContDiffAt.div ?_ (ContDiffAt.mul (by fun_prop) (hAd.sqrt hA.ne')) (mul_ne_zero hden (Real.sqrt_pos.2 hA).ne')
    exact contDiffAt_const.mul ((ContDiffAt.mul (by fun_prop) hK).add (ContDiffAt.mul (by fun_prop) hE))
  refine hmain.congr_of_eventuallyEq ?_
  filter_upwards [hr.continuousAt.eventually (lt_mem_nhds hry)] with w hw
  unfold dr1PotentialRadialRing dr1RingWith
  rw [if_neg (not_lt.2 (le_of_lt hw))]

/-- The components of the field of a ring of current. -/
theorem contDiffAt_currentRing {r z : E → ℝ} {y : E} (hr : ContDiffAt ℝ n r y) (hz : ContDiffAt ℝ n z y) {a b : ℝ} (h : (r y, z y) ≠ (a, b)) (ha : 0 < a) (hry : minDistanceAxis < r y) :
    ContDiffAt ℝ n (fun y => (currentFieldRadialRing (r y) (z y) a b).1) y ∧ ContDiffAt ℝ n (fun y => (currentFieldRadialRing (r y) (z y) a b).2) y := by
  unfold currentFieldRadialRing currentFieldRingWith
  by_cases hma : a < minDistanceAxis
  · simp only [if_pos hma]
    exact ⟨contDiffAt_const, contDiffAt_const⟩
  simp only [if_neg hma]
  have hr0 : 0 < r y := lt_trans (by norm_num [minDistanceAxis]) hry
  have hd := ring_dist_pos h
  have hA : 0 < (z y - b) ^ 2 + (a + r y) ^ 2 := by positivity
  have hB : 0 < (z y - b) ^ 2 + (r y - a) ^ 2 := by nlinarith
  have hAd : ContDiffAt ℝ n (fun y => (z y - b) ^ 2 + (a + r y) ^ 2) y := by fun_prop
  have hBd : ContDiffAt ℝ n (fun y => (z y - b) ^ 2 + (r y - a) ^ 2) y := by fun_prop
  have hk : ContDiffAt ℝ n (fun y => 4 * r y * a / ((z y - b) ^ 2 + (a + r y) ^ 2)) y := ContDiffAt.div (by fun_prop) hAd hA.ne'
  have hk0 : 0 < 4 * r y * a / ((z y - b) ^ 2 + (a + r y) ^ 2) := by positivity
  have hk1 : 4 * r y * a / ((z y - b) ^ 2 + (a + r y) ^ 2) < 1 := by
    rw [div_lt_one hA]; nlinarith
  have hK : ContDiffAt ℝ n (fun y => ellipk (4 * r y * a / ((z y - b) ^ 2 + (a + r y) ^ 2))) y := by
    refine (contDiffAt_ellipkm1 (p := fun y => 1 - 4 * r y * a / ((z y - b) ^ 2 + (a + r y) ^ 2)) (contDiffAt_const.sub hk) (by linarith)).congr_of_eventuallyEq ?_
    filter_upwards [hk.continuousAt.eventually (lt_mem_nhds hk0)] with w hw
    unfold ellipk
    rw [if_pos (by linarith)]
  have hE : ContDiffAt ℝ n (fun y => ellipe (4 * r y * a / ((z y - b) ^ 2 + (a + r y) ^ 2))) y := by
    refine (contDiffAt_ellipem1 (p := fun y => 1 - 4 * r y * a / ((z y - b) ^ 2 + (a + r y) ^ 2)) (contDiffAt_const.sub hk) (by linarith)).congr_of_eventuallyEq ?_
    filter_upwards [hk.continuousAt.eventually (lt_mem_nhds hk0), hk.continuousAt.eventually (gt_mem_nhds hk1)] with w hw hw'
    unfold ellipe
    rw [if_pos ⟨hw.le, hw'.le⟩]
  have hs := hAd.sqrt hA.ne'
  have hs0 := Real.sqrt_pos.2 hA
  constructor
  · have hmain : ContDiffAt ℝ n (fun y => 1 / Real.pi * (z y - b) / (2 * r y * Real.sqrt ((z y - b) ^ 2 + (a + r y) ^ 2)) *
        (((z y - b) ^ 2 + r y ^ 2 + a ^ 2) / ((z y - b) ^ 2 + (r y - a) ^ 2) * ellipe (4 * r y * a / ((z y - b) ^ 2 + (a + r y) ^ 2)) - ellipk (4 * r y * a / ((z y - b) ^ 2 + (a + r y) ^ 2)))) y := by
      refine ContDiffAt.mul (ContDiffAt.div (by fun_prop) (ContDiffAt.mul (by fun_prop) hs) (by positivity)) ((ContDiffAt.mul (ContDiffAt.div (by fun_prop) hBd hB.ne') hE).sub hK)
    refine hmain.congr_of_eventuallyEq ?_
    filter_upwards [hr.continuousAt.eventually (lt_mem_nhds hry)] with w hw
    rw [if_neg (not_lt.2 (le_of_lt hw))]
  · refine ContDiffAt.mul (ContDiffAt.div contDiffAt_const (contDiffAt_const.mul hs) (by positivity)) ((ContDiffAt.mul (ContDiffAt.div (by fun_prop) hBd hB.ne') hE).add hK)

theorem contDiffAt_fromRadial {X Y Z er ez : E → ℝ} {y : E} (hX : ContDiffAt ℝ n X y) (hY : ContDiffAt ℝ n Y y) (her : ContDiffAt ℝ n er y) (hez : ContDiffAt ℝ n ez y)
    (hry : minDistanceAxis < norm2d (X y) (Y y)) :
    ContDiffAt ℝ n (fun y => (fromRadial ⟨X y, Y y, Z y⟩ (er y) (ez y)).x) y ∧ ContDiffAt ℝ n (fun y => (fromRadial ⟨X y, Y y, Z y⟩ (er y) (ez y)).y) y ∧
    ContDiffAt ℝ n (fun y => (fromRadial ⟨X y, Y y, Z y⟩ (er y) (ez y)).z) y := by
  have h0 : 0 < norm2d (X y) (Y y) := lt_trans (by norm_num [minDistanceAxis]) hry
  have hsq : 0 < X y * X y + Y y * Y y := by unfold norm2d at h0; exact Real.sqrt_pos.1 h0
  have hr : ContDiffAt ℝ n (fun y => norm2d (X y) (Y y)) y := by unfold norm2d; exact ContDiffAt.sqrt (by fun_prop) hsq.ne'
  have hev : ∀ᶠ w in 𝓝 y, minDistanceAxis ≤ norm2d (X w) (Y w) := by
    filter_upwards [hr.continuousAt.eventually (lt_mem_nhds hry)] with w hw using hw.le
  refine ⟨(((hX.div hr h0.ne').mul her)).congr_of_eventuallyEq ?_, (((hY.div hr h0.ne').mul her)).congr_of_eventuallyEq ?_, hez.congr_of_eventuallyEq ?_⟩ <;>
    (filter_upwards [hev] with w hw; unfold fromRadial; dsimp only; rw [if_pos hw]; try rfl)

theorem contDiffAt_norm2d {X Y : E → ℝ} {y : E} (hX : ContDiffAt ℝ n X y) (hY : ContDiffAt ℝ n Y y) (hry : minDistanceAxis < norm2d (X y) (Y y)) : ContDiffAt ℝ n (fun y => norm2d (X y) (Y y)) y := by
  have h0 : 0 < norm2d (X y) (Y y) := lt_trans (by norm_num [minDistanceAxis]) hry
  have hsq : 0 < X y * X y + Y y * Y y := by unfold norm2d at h0; exact Real.sqrt_pos.1 h0
  unfold norm2d
  exact ContDiffAt.sqrt (by fun_prop) hsq.ne'

theorem contDiffAt_fieldRadial (e : EffCharges (ℝ × ℝ)) {X Y Z : E → ℝ} {y : E} (hX : ContDiffAt ℝ n X y) (hY : ContDiffAt ℝ n Y y) (hZ : ContDiffAt ℝ n Z y)
    (hry : minDistanceAxis < norm2d (X y) (Y y)) (he : ∀ row ∈ e.positions, ∀ q ∈ row, 0 < q.1 ∧ (norm2d (X y) (Y y), Z y) ≠ q) :
    ContDiffAt ℝ n (fun y => (fieldRadial ⟨X y, Y y, Z y⟩ e).x) y ∧ ContDiffAt ℝ n (fun y => (fieldRadial ⟨X y, Y y, Z y⟩ e).y) y ∧ ContDiffAt ℝ n (fun y => (fieldRadial ⟨X y, Y y, Z y⟩ e).z) y := by
  have hr := contDiffAt_norm2d hX hY hry
  have h0 : 0 < norm2d (X y) (Y y) := lt_trans (by norm_num [minDistanceAxis]) hry
  refine contDiffAt_fromRadial hX hY ?_ ?_ hry
  · exact contDiffAt_loopSub e (fun q y => dr1PotentialRadialRing (norm2d (X y) (Y y)) (Z y) q.1 q.2) fun row hrow q hq =>
      contDiffAt_dr1Ring hr hZ (he row hrow q hq).2 (he row hrow q hq).1 hry
  · exact contDiffAt_loopSub e (fun q y => dz1PotentialRadialRing (norm2d (X y) (Y y)) (Z y) q.1 q.2) fun row hrow q hq =>
      contDiffAt_dz1Ring hr hZ (he row hrow q hq).2 (he row hrow q hq).1 h0.le

theorem contDiffAt_currentField (e : EffCharges V3) {X Y Z : E → ℝ} {y : E} (hX : ContDiffAt ℝ n X y) (hY : ContDiffAt ℝ n Y y) (hZ : ContDiffAt ℝ n Z y)
    (hry : minDistanceAxis < norm2d (X y) (Y y)) (he : ∀ row ∈ e.positions, ∀ q ∈ row, 0 < q.x ∧ (norm2d (X y) (Y y), Z y) ≠ (q.x, q.z)) :
    ContDiffAt ℝ n (fun y => (currentField ⟨X y, Y y, Z y⟩ e).x) y ∧ ContDiffAt ℝ n (fun y => (currentField ⟨X y, Y y, Z y⟩ e).y) y ∧ ContDiffAt ℝ n (fun y => (currentField ⟨X y, Y y, Z y⟩ e).z) y := by
  have hr := contDiffAt_norm2d hX hY hry
  refine contDiffAt_fromRadial hX hY ?_ ?_ hry
  · exact contDiffAt_loop e (fun q y => (currentFieldRadialRing (norm2d (X y) (Y y)) (Z y) q.x q.z).1) fun row hrow q hq =>
      (contDiffAt_currentRing hr hZ (he row hrow q hq).2 (he row hrow q hq).1 hry).1
  · exact contDiffAt_loop e (fun q y => (currentFieldRadialRing (norm2d (X y) (Y y)) (Z y) q.x q.z).2) fun row hrow q hq =>
      (contDiffAt_currentRing hr hZ (he row hrow q hq).2 (he row hrow q hq).1 hry).2

/-! ## The force -/

/-- The particle is further than 1e-10 from the axis and on none of the charged rings. -/
def Spec.OffRings (e : EffCharges (ℝ × ℝ)) (y : Fin 6 → ℝ) : Prop := ∀ row ∈ e.positions, ∀ q ∈ row, 0 < q.1 ∧ (norm2d (y 0) (y 1), y 2) ≠ q
/-- The particle is on none of the current carrying rings. -/
def Spec.OffCoils (e : EffCharges V3) (y : Fin 6 → ℝ) : Prop := ∀ row ∈ e.positions, ∀ q ∈ row, 0 < q.x ∧ (norm2d (y 0) (y 1), y 2) ≠ (q.x, q.z)

theorem continuous_cyl : Continuous (fun y : Fin 6 → ℝ => (norm2d (y 0) (y 1), y 2)) := by unfold norm2d; fun_prop

theorem isOpen_offRings (e : EffCharges (ℝ × ℝ)) : IsOpen {y | OffRings e y} := by
  have : {y | OffRings e y} = ⋂ row ∈ {r | r ∈ e.positions}, ⋂ q ∈ {q | q ∈ row}, {y : Fin 6 → ℝ | 0 < q.1 ∧ (norm2d (y 0) (y 1), y 2) ≠ q} := by
    ext y; simp only [mem_iInter]; rfl
  rw [this]
  refine Set.Finite.isOpen_biInter (List.finite_toSet _) fun row _ => Set.Finite.isOpen_biInter (List.finite_toSet _) fun q _ => ?_
  exact isOpen_const.inter (isOpen_ne_fun continuous_cyl continuous_const)

theorem isOpen_offCoils (e : EffCharges V3) : IsOpen {y | OffCoils e y} := by
  have : {y | OffCoils e y} = ⋂ row ∈ {r | r ∈ e.positions}, ⋂ q ∈ {q | q ∈ row}, {y : Fin 6 → ℝ | 0 < q.x ∧ (norm2d (y 0) (y 1), y 2) ≠ (q.x, q.z)} := by
    ext y; simp only [mem_iInter]; rfl
  rw [this]
  refine Set.Finite.isOpen_biInter (List.finite_toSet _) fun row _ => Set.Finite.isOpen_biInter (List.finite_toSet _) fun q _ => ?_
  exact isOpen_const.inter (isOpen_ne_fun continuous_cyl continuous_const)

theorem isOpen_offAxis : IsOpen {y : Fin 6 → ℝ | minDistanceAxis < norm2d (y 0) (y 1)} := isOpen_lt continuous_const (continuous_fst.comp continuous_cyl)

/-- The force of the tracer for radially symmetric fields without field bounds. -/
theorem contDiffAt_tracerRadial (f : FieldRadialBEM) {y : Fin 6 → ℝ} (ha : minDistanceAxis < norm2d (y 0) (y 1)) (he : OffRings f.elec y) (hm : OffRings f.mag y) (hc : OffCoils f.cur y) :
    ContDiffAt ℝ n (motion constEM (tracerRadialForce f none)) y := by
  have h0 : ContDiffAt ℝ n (fun y : Fin 6 → ℝ => y 0) y := contDiffAt_apply (𝕜 := ℝ) (E := ℝ) (n := n) (0 : Fin 6) y
  have h1 : ContDiffAt ℝ n (fun y : Fin 6 → ℝ => y 1) y := contDiffAt_apply (𝕜 := ℝ) (E := ℝ) (n := n) (1 : Fin 6) y
  have h2 : ContDiffAt ℝ n (fun y : Fin 6 → ℝ => y 2) y := contDiffAt_apply (𝕜 := ℝ) (E := ℝ) (n := n) (2 : Fin 6) y
  obtain ⟨e1, e2, e3⟩ := contDiffAt_fieldRadial f.elec h0 h1 h2 ha he
  obtain ⟨m1, m2, m3⟩ := contDiffAt_fieldRadial f.mag h0 h1 h2 ha hm
  obtain ⟨c1, c2, c3⟩ := contDiffAt_currentField f.cur h0 h1 h2 ha hc
  obtain ⟨k1, k2, k3⟩ := contDiffAt_combine e1 e2 e3 m1 m2 m3 c1 c2 c3
  have hforce : ∀ p : Phase, tracerRadialForce f none p = combineElecMagneticField p.vel (fieldRadial p.pos f.elec) (fieldRadial p.pos f.mag) (currentField p.pos f.cur) := by
    intro p
    unfold tracerRadialForce fieldRadialTraceable
    rw [if_pos (by intro b hb; cases hb)]
  refine contDiffAt_motion constEM ?_ ?_ ?_
  · simpa only [hforce] using k1
  · simpa only [hforce] using k2
  · simpa only [hforce] using k3

end Traceon
