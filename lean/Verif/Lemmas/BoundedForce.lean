import Verif.Lemmas.SmoothRadial
import Verif.Props.Progress2

/-!
# Where the forces of the tracers are bounded

For C79. Unlike smoothness, boundedness also holds near the axis, where the routines switch to another formula.
-/
namespace Traceon
open Spec Set Filter Topology Asymptotics

variable {E : Type*} [TopologicalSpace E]

/-- Bounded near a point. -/
def LB (f : E → ℝ) (y : E) : Prop := f =O[𝓝 y] (fun _ => (1 : ℝ))

theorem LB.of_continuousAt {f : E → ℝ} {y : E} (h : ContinuousAt f y) : LB f y := h.tendsto.isBigO_one ℝ

theorem LB.add {f g : E → ℝ} {y : E} (hf : LB f y) (hg : LB g y) : LB (fun u => f u + g u) y := IsBigO.add hf hg
theorem LB.sub {f g : E → ℝ} {y : E} (hf : LB f y) (hg : LB g y) : LB (fun u => f u - g u) y := IsBigO.sub hf hg
theorem LB.neg {f : E → ℝ} {y : E} (hf : LB f y) : LB (fun u => -f u) y := IsBigO.neg_left hf
theorem LB.mul {f g : E → ℝ} {y : E} (hf : LB f y) (hg : LB g y) : LB (fun u => f u * g u) y := by
  have := IsBigO.mul hf hg
  simpa [LB] using this
theorem LB.const (c : ℝ) (y : E) : LB (fun _ => c) y := LB.of_continuousAt continuousAt_const
theorem LB.of_le {f g : E → ℝ} {y : E} (hg : LB g y) (h : ∀ u, |f u| ≤ |g u|) : LB f y := (isBigO_of_le _ h).trans hg

theorem LB.superpose {P : Type} (e : EffCharges P) (g : P → E → ℝ) {y : E} (h : ∀ row ∈ e.positions, ∀ q ∈ row, LB (g q) y) :
    LB (fun y => superpose (fun q => g q y) e) y := by
  unfold Traceon.Spec.superpose
  have inner : ∀ (x : ℝ) (l : List (ℝ × P)), (∀ w ∈ l, LB (g w.2) y) → LB (fun y => (l.map fun w => x * w.1 * g w.2 y).sum) y := by
    intro x l
    induction l with
    | nil => intro _; simpa using LB.const 0 y
    | cons w l ih =>
      intro hl
      simp only [List.map_cons, List.sum_cons]
      exact ((LB.const (x * w.1) y).mul (hl w (by simp))).add (ih fun z hz => hl z (by simp [hz]))
  have outer : ∀ (l : List (ℝ × List ℝ × List P)), (∀ x ∈ l, ∀ w ∈ x.2.1.zip x.2.2, LB (g w.2) y) →
      LB (fun y => (l.map fun x => ((x.2.1.zip x.2.2).map fun w => x.1 * w.1 * g w.2 y).sum).sum) y := by
    intro l
    induction l with
    | nil => intro _; simpa using LB.const 0 y
    | cons x l ih =>
      intro hl
      simp only [List.map_cons, List.sum_cons]
      exact (inner x.1 _ (hl x (by simp))).add (ih fun z hz => hl z (by simp [hz]))
  refine outer _ ?_
  intro x hx w hw
  exact h x.2.2 (List.of_mem_zip (List.of_mem_zip hx).2).2 w.2 (List.of_mem_zip hw).2

theorem LB.loop {P : Type} (e : EffCharges P) (g : P → E → ℝ) {y : E} (h : ∀ row ∈ e.positions, ∀ q ∈ row, LB (g q) y) :
    LB (fun y => e.loop (fun q => g q y)) y := by
  simpa only [EffCharges.loop_eq] using LB.superpose e g h

theorem LB.loopSub {P : Type} (e : EffCharges P) (g : P → E → ℝ) {y : E} (h : ∀ row ∈ e.positions, ∀ q ∈ row, LB (g q) y) :
    LB (fun y => e.loopSub (fun q => g q y)) y := by
  simpa only [EffCharges.loopSub_eq] using (LB.superpose e g h).neg

theorem continuousAt_ellipkm1_pos {p : ℝ} (h : 0 < p) : ContinuousAt ellipkm1 p :=
  (contDiffAt_ellipkm1 (n := 0) (p := fun x : ℝ => x) contDiffAt_id h).continuousAt

theorem continuousAt_ellipem1_pos {p : ℝ} (h : 0 < p) : ContinuousAt ellipem1 p :=
  (contDiffAt_ellipem1 (n := 0) (p := fun x : ℝ => x) contDiffAt_id h).continuousAt

theorem continuousAt_dz1Ring {r z : E → ℝ} {y : E} (hr : ContinuousAt r y) (hz : ContinuousAt z y) {a b : ℝ} (h : (r y, z y) ≠ (a, b)) (ha : 0 < a) (hry : 0 ≤ r y) :
    ContinuousAt (fun y => dz1PotentialRadialRing (r y) (z y) a b) y := by
  have hd := ring_dist_pos h
  have hA : 0 < 4 * r y * r y + 4 * (a - r y) * r y + (b - z y) * (b - z y) + (a - r y) * (a - r y) := by
    have e : 4 * r y * r y + 4 * (a - r y) * r y + (b - z y) * (b - z y) + (a - r y) * (a - r y) = (a + r y) ^ 2 + (b - z y) * (b - z y) := by ring
    rw [e]
    have := mul_self_nonneg (b - z y)
    positivity
  have hAd : ContinuousAt (fun y => 4 * r y * r y + 4 * (a - r y) * r y + (b - z y) * (b - z y) + (a - r y) * (a - r y)) y := by fun_prop
  have hc : ContinuousAt (fun y => ((b - z y) * (b - z y) + (a - r y) * (a - r y)) / (4 * r y * r y + 4 * (a - r y) * r y + (b - z y) * (b - z y) + (a - r y) * (a - r y))) y :=
    ContinuousAt.div (by fun_prop) hAd hA.ne'
  have hE : ContinuousAt (fun y => ellipem1 (((b - z y) * (b - z y) + (a - r y) * (a - r y)) / (4 * r y * r y + 4 * (a - r y) * r y + (b - z y) * (b - z y) + (a - r y) * (a - r y)))) y :=
    ContinuousAt.comp_of_eq (g := ellipem1) (continuousAt_ellipem1_pos (div_pos hd hA)) hc rfl
  unfold dz1PotentialRadialRing dz1RingWith
  refine ContinuousAt.div ?_ (ContinuousAt.mul (by fun_prop) hAd.sqrt) (mul_ne_zero hd.ne' (Real.sqrt_pos.2 hA).ne')
  exact continuousAt_const.mul (ContinuousAt.neg (ContinuousAt.mul (by fun_prop) hE))

theorem LB.dr1Ring {r z : E → ℝ} {y : E} (hr : ContinuousAt r y) (hz : ContinuousAt z y) {a b : ℝ} (h : (r y, z y) ≠ (a, b)) (ha : 0 < a) :
    LB (fun y => dr1PotentialRadialRing (r y) (z y) a b) y := by
  rcases lt_or_ge (r y) minDistanceAxis with hlt | hge
  · refine (LB.const 0 y).congr' ?_ EventuallyEq.rfl
    filter_upwards [hr.eventually (gt_mem_nhds hlt)] with w hw
    unfold dr1PotentialRadialRing dr1RingWith
    rw [if_pos hw]
  have hr0 : 0 < r y := lt_of_lt_of_le (by norm_num [minDistanceAxis]) hge
  have hd := ring_dist_pos h
  have hA : 0 < 4 * a * a - 4 * (a - r y) * a + (b - z y) * (b - z y) + (a - r y) * (a - r y) := by
    have e : 4 * a * a - 4 * (a - r y) * a + (b - z y) * (b - z y) + (a - r y) * (a - r y) = (a + r y) ^ 2 + (b - z y) * (b - z y) := by ring
    rw [e]
    have := mul_self_nonneg (b - z y)
    positivity
  have hAd : ContinuousAt (fun y => 4 * a * a - 4 * (a - r y) * a + (b - z y) * (b - z y) + (a - r y) * (a - r y)) y := by fun_prop
  have hc : ContinuousAt (fun y => ((b - z y) * (b - z y) + (a - r y) * (a - r y)) / (4 * a * a - 4 * (a - r y) * a + (b - z y) * (b - z y) + (a - r y) * (a - r y))) y :=
    ContinuousAt.div (by fun_prop) hAd hA.ne'
  have hE := ContinuousAt.comp_of_eq (g := ellipem1) (continuousAt_ellipem1_pos (div_pos hd hA)) hc rfl
  have hK := ContinuousAt.comp_of_eq (g := ellipkm1) (continuousAt_ellipkm1_pos (div_pos hd hA)) hc rfl
  have hden : (-2 * (a - r y) * (a - r y) * a) + (b - z y) * (b - z y) * (2 * (a - r y) - 2 * a) + 2 * (a - r y) * (a - r y) * (a - r y) ≠ 0 := by
    have e : (-2 * (a - r y) * (a - r y) * a) + (b - z y) * (b - z y) * (2 * (a - r y) - 2 * a) + 2 * (a - r y) * (a - r y) * (a - r y) =
        -2 * r y * ((b - z y) * (b - z y) + (a - r y) * (a - r y)) := by ring
    rw [e]
    exact mul_ne_zero (mul_ne_zero (by norm_num) hr0.ne') hd.ne'
  have hmain : ContinuousAt (fun y => 1 / Real.pi * (((b - z y) * (b - z y) * a + (a - r y) * (a - r y) * a) *
        ellipkm1 (((b - z y) * (b - z y) + (a - r y) * (a - r y)) / (4 * a * a - 4 * (a - r y) * a + (b - z y) * (b - z y) + (a - r y) * (a - r y))) +
      ((-2 * (a - r y) * a * a) - (b - z y) * (b - z y) * a + (a - r y) * (a - r y) * a) *
        ellipem1 (((b - z y) * (b - z y) + (a - r y) * (a - r y)) / (4 * a * a - 4 * (a - r y) * a + (b - z y) * (b - z y) + (a - r y) * (a - r y)))) /
      (((-2 * (a - r y) * (a - r y) * a) + (b - z y) * (b - z y) * (2 * (a - r y) - 2 * a) + 2 * (a - r y) * (a - r y) * (a - r y)) *
        Real.sqrt (4 * a * a - 4 * (a - r y) * a + (b - z y) * (b - z y) + (a - r y) * (a - r y)))) y := by
    refine ContinuousAt.div ?_ (ContinuousAt.mul (by fun_prop) hAd.sqrt) (mul_ne_zero hden (Real.sqrt_pos.2 hA).ne')
    exact continuousAt_const.mul ((ContinuousAt.mul (by fun_prop) hK).add (ContinuousAt.mul (by fun_prop) hE))
  refine (LB.of_continuousAt hmain).of_le fun u => ?_
  unfold dr1PotentialRadialRing dr1RingWith
  split_ifs
  · simp
  · exact le_rfl

theorem LB.currentRing {r z : E → ℝ} {y : E} (hr : ContinuousAt r y) (hz : ContinuousAt z y) (hr0 : ∀ u, 0 ≤ r u) {a b : ℝ} (h : (r y, z y) ≠ (a, b)) (ha : 0 < a) :
    LB (fun y => (currentFieldRadialRing (r y) (z y) a b).1) y ∧ LB (fun y => (currentFieldRadialRing (r y) (z y) a b).2) y := by
  unfold currentFieldRadialRing currentFieldRingWith
  by_cases hma : a < minDistanceAxis
  · simp only [if_pos hma]
    exact ⟨LB.const 0 y, LB.const 0 y⟩
  simp only [if_neg hma]
  have hry := hr0 y
  have hd := ring_dist_pos h
  have hA : 0 < (z y - b) ^ 2 + (a + r y) ^ 2 := by positivity
  have hB : 0 < (z y - b) ^ 2 + (r y - a) ^ 2 := by nlinarith
  have hAd : ContinuousAt (fun y => (z y - b) ^ 2 + (a + r y) ^ 2) y := by fun_prop
  have hBd : ContinuousAt (fun y => (z y - b) ^ 2 + (r y - a) ^ 2) y := by fun_prop
  have hk : ContinuousAt (fun y => 4 * r y * a / ((z y - b) ^ 2 + (a + r y) ^ 2)) y := ContinuousAt.div (by fun_prop) hAd hA.ne'
  have hk0 : ∀ u, 0 ≤ 4 * r u * a / ((z u - b) ^ 2 + (a + r u) ^ 2) := fun u => by have := hr0 u; positivity
  have hk1 : 4 * r y * a / ((z y - b) ^ 2 + (a + r y) ^ 2) < 1 := by
    rw [div_lt_one hA]; nlinarith
  have hK : ContinuousAt (fun y => ellipk (4 * r y * a / ((z y - b) ^ 2 + (a + r y) ^ 2))) y := by
    have h1 : ContinuousAt (fun y => 1 - 4 * r y * a / ((z y - b) ^ 2 + (a + r y) ^ 2)) y := continuousAt_const.sub hk
    refine (ContinuousAt.comp_of_eq (g := ellipkm1) (continuousAt_ellipkm1_pos (p := 1 - 4 * r y * a / ((z y - b) ^ 2 + (a + r y) ^ 2)) (by linarith)) h1 rfl).congr ?_
    filter_upwards with w
    unfold ellipk
    rw [if_pos (by linarith [hk0 w])]
    rfl
  have hE : ContinuousAt (fun y => ellipe (4 * r y * a / ((z y - b) ^ 2 + (a + r y) ^ 2))) y := by
    have h1 : ContinuousAt (fun y => 1 - 4 * r y * a / ((z y - b) ^ 2 + (a + r y) ^ 2)) y := continuousAt_const.sub hk
    refine (ContinuousAt.comp_of_eq (g := ellipem1) (continuousAt_ellipem1_pos (p := 1 - 4 * r y * a / ((z y - b) ^ 2 + (a + r y) ^ 2)) (by linarith)) h1 rfl).congr ?_
    filter_upwards [hk.eventually (gt_mem_nhds hk1)] with w hw
    unfold ellipe
    rw [if_pos ⟨hk0 w, hw.le⟩]
    rfl
  have hs := hAd.sqrt
  have hs0 := Real.sqrt_pos.2 hA
  constructor
  · rcases lt_or_ge (r y) minDistanceAxis with hlt | hge
    · refine (LB.const 0 y).congr' ?_ EventuallyEq.rfl
      filter_upwards [hr.eventually (gt_mem_nhds hlt)] with w hw
      rw [if_pos hw]
    have hrp : 0 < r y := lt_of_lt_of_le (by norm_num [minDistanceAxis]) hge
    have hmain : ContinuousAt (fun y => 1 / Real.pi * (z y - b) / (2 * r y * Real.sqrt ((z y - b) ^ 2 + (a + r y) ^ 2)) *
        (((z y - b) ^ 2 + r y ^ 2 + a ^ 2) / ((z y - b) ^ 2 + (r y - a) ^ 2) * ellipe (4 * r y * a / ((z y - b) ^ 2 + (a + r y) ^ 2)) - ellipk (4 * r y * a / ((z y - b) ^ 2 + (a + r y) ^ 2)))) y := by
      refine ContinuousAt.mul (ContinuousAt.div (by fun_prop) (ContinuousAt.mul (by fun_prop) hs) (by positivity)) ((ContinuousAt.mul (ContinuousAt.div (by fun_prop) hBd hB.ne') hE).sub hK)
    refine (LB.of_continuousAt hmain).of_le fun u => ?_
    split_ifs
    · rw [abs_zero]; exact abs_nonneg _
    · exact le_rfl
  · exact LB.of_continuousAt (ContinuousAt.mul (ContinuousAt.div continuousAt_const (continuousAt_const.mul hs) (by positivity))
      ((ContinuousAt.mul (ContinuousAt.div (by fun_prop) hBd hB.ne') hE).add hK))

theorem abs_div_norm2d_le (x y : ℝ) : |x / norm2d x y| ≤ 1 ∧ |y / norm2d x y| ≤ 1 := by
  have h0 : 0 ≤ norm2d x y := Real.sqrt_nonneg _
  have hx : |x| ≤ norm2d x y := by
    unfold norm2d; rw [← Real.sqrt_sq_eq_abs]; apply Real.sqrt_le_sqrt; nlinarith [mul_self_nonneg y]
  have hy : |y| ≤ norm2d x y := by
    unfold norm2d; rw [← Real.sqrt_sq_eq_abs]; apply Real.sqrt_le_sqrt; nlinarith [mul_self_nonneg x]
  rw [abs_div, abs_div, abs_of_nonneg h0]
  exact ⟨div_le_one_of_le₀ hx h0, div_le_one_of_le₀ hy h0⟩

theorem LB.fromRadial {X Y Z er ez : E → ℝ} {y : E} (her : LB er y) (hez : LB ez y) :
    LB (fun y => (fromRadial ⟨X y, Y y, Z y⟩ (er y) (ez y)).x) y ∧ LB (fun y => (fromRadial ⟨X y, Y y, Z y⟩ (er y) (ez y)).y) y ∧
    LB (fun y => (fromRadial ⟨X y, Y y, Z y⟩ (er y) (ez y)).z) y := by
  refine ⟨her.of_le fun u => ?_, her.of_le fun u => ?_, hez.of_le fun u => ?_⟩ <;> unfold Traceon.fromRadial <;> dsimp only <;> split_ifs <;> dsimp only
  · rw [abs_mul]; exact mul_le_of_le_one_left (abs_nonneg _) (abs_div_norm2d_le _ _).1
  · simp
  · rw [abs_mul]; exact mul_le_of_le_one_left (abs_nonneg _) (abs_div_norm2d_le _ _).2
  · simp
  · exact le_rfl
  · exact le_rfl

/-- The force of the tracer of radially symmetric fields is bounded near every state that is not on a ring. -/
theorem boundedNear_radial (f : FieldRadialBEM) (b : Option UserBounds) (p : Phase) (he : OffRings f.elec (vec p)) (hm : OffRings f.mag (vec p)) (hc : OffCoils f.cur (vec p)) :
    BoundedNear (tracerRadialForce f b) p := by
  set y := vec p with hy
  let R : (Fin 6 → ℝ) → ℝ := fun u => norm2d (u 0) (u 1)
  have hR : ContinuousAt R y := (continuous_fst.comp continuous_cyl).continuousAt
  have hZ : ContinuousAt (fun u : Fin 6 → ℝ => u 2) y := (continuous_apply (2 : Fin 6)).continuousAt
  have hR0 : ∀ u, 0 ≤ R u := fun u => Real.sqrt_nonneg _
  have hfield : ∀ e : EffCharges (ℝ × ℝ), OffRings e y → LB (fun u : Fin 6 → ℝ => (fieldRadial ⟨u 0, u 1, u 2⟩ e).x) y ∧ LB (fun u : Fin 6 → ℝ => (fieldRadial ⟨u 0, u 1, u 2⟩ e).y) y ∧
      LB (fun u : Fin 6 → ℝ => (fieldRadial ⟨u 0, u 1, u 2⟩ e).z) y := by
    intro e h
    refine LB.fromRadial (LB.loopSub e (fun q u => dr1PotentialRadialRing (R u) (u 2) q.1 q.2) fun row hrow q hq => ?_)
      (LB.loopSub e (fun q u => dz1PotentialRadialRing (R u) (u 2) q.1 q.2) fun row hrow q hq => ?_)
    · exact LB.dr1Ring hR hZ (h row hrow q hq).2 (h row hrow q hq).1
    · exact LB.of_continuousAt (continuousAt_dz1Ring hR hZ (h row hrow q hq).2 (h row hrow q hq).1 (hR0 y))
  have hcur : LB (fun u : Fin 6 → ℝ => (currentField ⟨u 0, u 1, u 2⟩ f.cur).x) y ∧ LB (fun u : Fin 6 → ℝ => (currentField ⟨u 0, u 1, u 2⟩ f.cur).y) y ∧
      LB (fun u : Fin 6 → ℝ => (currentField ⟨u 0, u 1, u 2⟩ f.cur).z) y := by
    refine LB.fromRadial (LB.loop f.cur (fun q u => (currentFieldRadialRing (R u) (u 2) q.x q.z).1) fun row hrow q hq => ?_)
      (LB.loop f.cur (fun q u => (currentFieldRadialRing (R u) (u 2) q.x q.z).2) fun row hrow q hq => ?_)
    · exact (LB.currentRing hR hZ hR0 (hc row hrow q hq).2 (hc row hrow q hq).1).1
    · exact (LB.currentRing hR hZ hR0 (hc row hrow q hq).2 (hc row hrow q hq).1).2
  obtain ⟨e1, e2, e3⟩ := hfield f.elec he
  obtain ⟨m1, m2, m3⟩ := hfield f.mag hm
  obtain ⟨c1, c2, c3⟩ := hcur
  have v3 : LB (fun u : Fin 6 → ℝ => u 3) y := LB.of_continuousAt (continuous_apply (3 : Fin 6)).continuousAt
  have v4 : LB (fun u : Fin 6 → ℝ => u 4) y := LB.of_continuousAt (continuous_apply (4 : Fin 6)).continuousAt
  have v5 : LB (fun u : Fin 6 → ℝ => u 5) y := LB.of_continuousAt (continuous_apply (5 : Fin 6)).continuousAt
  let F : (Fin 6 → ℝ) → V3 := fun u =>
    combineElecMagneticField ⟨u 3, u 4, u 5⟩ (fieldRadial ⟨u 0, u 1, u 2⟩ f.elec) (fieldRadial ⟨u 0, u 1, u 2⟩ f.mag) (currentField ⟨u 0, u 1, u 2⟩ f.cur)
  have k : ∀ c : ℝ, LB (fun _ : Fin 6 → ℝ => c) y := fun c => LB.const c y
  have hx : LB (fun u => (F u).x) y := e1.add ((v4.mul ((k constMu0).mul (m3.add c3))).sub (v5.mul ((k constMu0).mul (m2.add c2))))
  have hy' : LB (fun u => (F u).y) y := e2.add ((v5.mul ((k constMu0).mul (m1.add c1))).sub (v3.mul ((k constMu0).mul (m3.add c3))))
  have hz : LB (fun u => (F u).z) y := e3.add ((v3.mul ((k constMu0).mul (m2.add c2))).sub (v4.mul ((k constMu0).mul (m1.add c1))))
  obtain ⟨C1, h1⟩ := hx.bound
  obtain ⟨C2, h2⟩ := hy'.bound
  obtain ⟨C3, h3⟩ := hz.bound
  obtain ⟨r, hr, hball⟩ := Metric.eventually_nhds_iff_ball.1 (h1.and (h2.and h3))
  refine ⟨C1 + C2 + C3, r / 2, by positivity, fun p' hp' => ?_⟩
  have hmem : vec p' ∈ Metric.ball y r := by
    rw [Metric.mem_ball]
    refine lt_of_le_of_lt ((dist_pi_le_iff (by positivity)).2 fun j => ?_) (show r / 2 < r by linarith)
    rw [Real.dist_eq]; exact hp' j
  obtain ⟨b1, b2, b3⟩ := hball _ hmem
  simp only [norm_one, mul_one, Real.norm_eq_abs] at b1 b2 b3
  have hF : F (vec p') = combineElecMagneticField p'.vel (fieldRadial p'.pos f.elec) (fieldRadial p'.pos f.mag) (currentField p'.pos f.cur) := rfl
  rw [hF] at b1 b2 b3
  have hpos : 0 ≤ C1 + C2 + C3 := by have := abs_nonneg (F (vec p')).x; have := b1.trans' (abs_nonneg _); have := b2.trans' (abs_nonneg _); have := b3.trans' (abs_nonneg _); linarith
  unfold tracerRadialForce fieldRadialTraceable
  split_ifs
  · exact (norm_le_comps _).trans (by linarith)
  · simpa [V3.norm, V3.dot] using hpos

/-- The force of the tracer of 3D fields is bounded near every state that is not on a point charge. -/
theorem boundedNear_3d (f : Field3DBEM) (b : Option UserBounds) (p : Phase) (he : OffCharges f.elec (vec p)) (hm : OffCharges f.mag (vec p)) : BoundedNear (tracer3dForce f b) p := by
  have hc := (contDiffAt_tracer3d (n := 0) f b he hm).continuousAt
  have hem : 0 < |constEM| := abs_pos.2 (by norm_num [constEM])
  obtain ⟨C, hC⟩ := (hc.tendsto.isBigO_one ℝ).bound
  obtain ⟨r, hr, hball⟩ := Metric.eventually_nhds_iff_ball.1 hC
  refine ⟨3 * (C / |constEM|), r / 2, by positivity, fun p' hp' => ?_⟩
  have hmem : vec p' ∈ Metric.ball (vec p) r := by
    rw [Metric.mem_ball]
    refine lt_of_le_of_lt ((dist_pi_le_iff (by positivity)).2 fun j => ?_) (show r / 2 < r by linarith)
    rw [Real.dist_eq]; exact hp' j
  have hb := hball _ hmem
  simp only [norm_one, mul_one] at hb
  have comp : ∀ j, |motion constEM (tracer3dForce f b) (vec p') j| ≤ C := fun j => (norm_le_pi_norm _ j).trans hb
  rw [motion_vec] at comp
  have key : ∀ c : ℝ, |constEM * c| ≤ C → |c| ≤ C / |constEM| := fun c h => by rw [le_div_iff₀ hem, mul_comm, ← abs_mul]; exact h
  have k1 := key _ (comp 3)
  have k2 := key _ (comp 4)
  have k3 := key _ (comp 5)
  exact (norm_le_comps _).trans (by linarith)

end Traceon
