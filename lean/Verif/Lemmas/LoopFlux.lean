import Verif.Lemmas.RingFlux
import Verif.Props.VacuumRadial2

/-!
# The flux of the magnetic field of a current loop out of a box
-/
namespace Traceon
open Spec V3 BoxFlux MeasureTheory Real

namespace LoopFlux

theorem inner_deriv {k t z : ℝ} (h : 0 < k + (z - t) ^ 2) : HasDerivAt (fun z => -(1 / √(k + (z - t) ^ 2))) ((z - t) / √(k + (z - t) ^ 2) ^ 3) z := by
  have h0 : 0 < √(k + (z - t) ^ 2) := Real.sqrt_pos.2 h
  have h1 : HasDerivAt (fun z => k + (z - t) ^ 2) (2 * (z - t)) z := by
    have := (((hasDerivAt_id z).sub_const t).pow 2).const_add k
    simpa using this
  have h2 := (h1.sqrt h.ne').inv h0.ne'
  have h3 := h2.neg
  refine (h3.congr_deriv ?_).congr_of_eventuallyEq (Filter.Eventually.of_forall fun z => by simp)
  field_simp

theorem inner {k t c d : ℝ} (hcd : c ≤ d) (h : ∀ z ∈ Set.Icc c d, 0 < k + (z - t) ^ 2) :
    ∫ z in c..d, (z - t) / √(k + (z - t) ^ 2) ^ 3 = 1 / √(k + (c - t) ^ 2) - 1 / √(k + (d - t) ^ 2) := by
  rw [← Set.uIcc_of_le hcd] at h
  rw [intervalIntegral.integral_eq_sub_of_hasDerivAt (fun z hz => inner_deriv (h z hz))]
  · ring
  · refine ContinuousOn.intervalIntegrable ?_
    refine ContinuousOn.div (by fun_prop) (by fun_prop) fun z hz => ?_
    have := Real.sqrt_pos.2 (h z hz)
    positivity

/-- The distance from `q`. -/
noncomputable def dist3 (q : V3) (x y z : ℝ) : ℝ := √((x - q.x) ^ 2 + (y - q.y) ^ 2 + (z - q.z) ^ 2)

theorem dist3_continuous (q : V3) : Continuous fun v : ℝ × ℝ × ℝ => dist3 q v.1 v.2.1 v.2.2 := by unfold dist3; fun_prop

theorem sum_pos {q : V3} {x y z : ℝ} (h : q ≠ ⟨x, y, z⟩) : 0 < (x - q.x) ^ 2 + (y - q.y) ^ 2 + (z - q.z) ^ 2 := by
  by_contra hn
  have h1 : x - q.x = 0 := by nlinarith [sq_nonneg (x - q.x), sq_nonneg (y - q.y), sq_nonneg (z - q.z)]
  have h2 : y - q.y = 0 := by nlinarith [sq_nonneg (x - q.x), sq_nonneg (y - q.y), sq_nonneg (z - q.z)]
  have h3 : z - q.z = 0 := by nlinarith [sq_nonneg (x - q.x), sq_nonneg (y - q.y), sq_nonneg (z - q.z)]
  exact h (by ext <;> simp only <;> linarith)

theorem dist3_pos {q : V3} {x y z : ℝ} (h : q ≠ ⟨x, y, z⟩) : 0 < dist3 q x y z := Real.sqrt_pos.2 (sum_pos h)

/-- The field of a piece of wire at `q` in the direction `d` (law of Biot and Savart). -/
noncomputable def wire (d q p : V3) : V3 := (1 / (4 * π * V3.norm (p - q) ^ 3)) * cross d (p - q)

theorem norm_dist3 (q : V3) (x y z : ℝ) : V3.norm (⟨x, y, z⟩ - q) = dist3 q x y z := by
  unfold V3.norm V3.dot dist3; congr 1; simp only [V3.sub_x, V3.sub_y, V3.sub_z]; ring

theorem wire_x (dx dy : ℝ) (q : V3) (x y z : ℝ) : (wire ⟨dx, dy, 0⟩ q ⟨x, y, z⟩).x = dy / (4 * π) * ((z - q.z) / dist3 q x y z ^ 3) := by
  unfold wire; rw [norm_dist3]; simp only [cross, V3.smul_x, V3.sub_x, V3.sub_y, V3.sub_z]; ring

theorem wire_y (dx dy : ℝ) (q : V3) (x y z : ℝ) : (wire ⟨dx, dy, 0⟩ q ⟨x, y, z⟩).y = -dx / (4 * π) * ((z - q.z) / dist3 q x y z ^ 3) := by
  unfold wire; rw [norm_dist3]; simp only [cross, V3.smul_y, V3.sub_x, V3.sub_y, V3.sub_z]; ring

theorem wire_z (dx dy : ℝ) (q : V3) (x y z : ℝ) : (wire ⟨dx, dy, 0⟩ q ⟨x, y, z⟩).z = dx / (4 * π) * ((y - q.y) / dist3 q x y z ^ 3) - dy / (4 * π) * ((x - q.x) / dist3 q x y z ^ 3) := by
  unfold wire; rw [norm_dist3]; simp only [cross, V3.smul_z, V3.sub_x, V3.sub_y, V3.sub_z]; ring

section
variable {q : V3}

theorem along_z {x y c d : ℝ} (h : c ≤ d) (hq : ∀ z ∈ Set.Icc c d, q ≠ ⟨x, y, z⟩) : ∫ z in c..d, (z - q.z) / dist3 q x y z ^ 3 = 1 / dist3 q x y c - 1 / dist3 q x y d := by
  unfold dist3
  exact inner h fun z hz => sum_pos (hq z hz)

theorem along_y {x z c d : ℝ} (h : c ≤ d) (hq : ∀ y ∈ Set.Icc c d, q ≠ ⟨x, y, z⟩) : ∫ y in c..d, (y - q.y) / dist3 q x y z ^ 3 = 1 / dist3 q x c z - 1 / dist3 q x d z := by
  have e : ∀ y, (x - q.x) ^ 2 + (y - q.y) ^ 2 + (z - q.z) ^ 2 = (x - q.x) ^ 2 + (z - q.z) ^ 2 + (y - q.y) ^ 2 := fun y => by ring
  unfold dist3
  simp only [e]
  exact inner h fun y hy => by rw [← e]; exact sum_pos (hq y hy)

theorem along_x {y z c d : ℝ} (h : c ≤ d) (hq : ∀ x ∈ Set.Icc c d, q ≠ ⟨x, y, z⟩) : ∫ x in c..d, (x - q.x) / dist3 q x y z ^ 3 = 1 / dist3 q c y z - 1 / dist3 q d y z := by
  have e : ∀ x, (x - q.x) ^ 2 + (y - q.y) ^ 2 + (z - q.z) ^ 2 = (y - q.y) ^ 2 + (z - q.z) ^ 2 + (x - q.x) ^ 2 := fun x => by ring
  unfold dist3
  simp only [e]
  exact inner h fun x hx => by rw [← e]; exact sum_pos (hq x hx)

theorem edge {P : ℝ → V3} (hP : Continuous fun t => ((P t).x, (P t).y, (P t).z)) {c d : ℝ} (h : c ≤ d) (hq : ∀ t ∈ Set.Icc c d, q ≠ P t) :
    IntervalIntegrable (fun t => 1 / dist3 q (P t).x (P t).y (P t).z) volume c d := by
  refine ContinuousOn.intervalIntegrable ?_
  rw [Set.uIcc_of_le h]
  exact continuousOn_const.div ((dist3_continuous q).comp hP).continuousOn fun t ht => (dist3_pos (hq t ht)).ne'

end

/-- No magnetic flux leaves a box because of a piece of wire that does not touch the surface of the box. -/
theorem wire_flux {a b : V3} (hx : a.x ≤ b.x) (hy : a.y ≤ b.y) (hz : a.z ≤ b.z) (dx dy : ℝ) {q : V3} (h : InsideBox a b q ∨ OutsideBox a b q) : boxFlux (wire ⟨dx, dy, 0⟩ q) a b = 0 := by
  have ax := Set.left_mem_Icc.2 hx
  have bx := Set.right_mem_Icc.2 hx
  have ay := Set.left_mem_Icc.2 hy
  have by' := Set.right_mem_Icc.2 hy
  have az := Set.left_mem_Icc.2 hz
  have bz := Set.right_mem_Icc.2 hz
  have ne := fun {x y z : ℝ} (h1 : x ∈ Set.Icc a.x b.x) (h2 : y ∈ Set.Icc a.y b.y) (h3 : z ∈ Set.Icc a.z b.z) hs => face_ne (v := ⟨x, y, z⟩) h h1 h2 h3 hs
  -- the integrals along the edges
  let Y := fun x z => ∫ y in a.y..b.y, 1 / dist3 q x y z
  let X := fun y z => ∫ x in a.x..b.x, 1 / dist3 q x y z
  have hY : ∀ {x z}, x = a.x ∨ x = b.x → z ∈ Set.Icc a.z b.z → IntervalIntegrable (fun y => 1 / dist3 q x y z) volume a.y b.y := fun {x z} hx' hz' =>
    edge (P := fun y => ⟨x, y, z⟩) (by fun_prop) hy fun y hy' => ne (by rcases hx' with rfl | rfl <;> assumption) hy' hz' (.inl hx')
  have hX : ∀ {y z}, y = a.y ∨ y = b.y → z ∈ Set.Icc a.z b.z → IntervalIntegrable (fun x => 1 / dist3 q x y z) volume a.x b.x := fun {y z} hy' hz' =>
    edge (P := fun x => ⟨x, y, z⟩) (by fun_prop) hx fun x hx' => ne hx' (by rcases hy' with rfl | rfl <;> assumption) hz' (.inr (.inl hy'))
  have fx : ∀ {x}, x = a.x ∨ x = b.x → ∫ y in a.y..b.y, ∫ z in a.z..b.z, (wire ⟨dx, dy, 0⟩ q ⟨x, y, z⟩).x = dy / (4 * π) * (Y x a.z - Y x b.z) := fun {x} hx' => by
    have hxm : x ∈ Set.Icc a.x b.x := by rcases hx' with rfl | rfl <;> assumption
    simp only [wire_x, intervalIntegral.integral_const_mul]
    congr 1
    rw [← intervalIntegral.integral_sub (hY hx' az) (hY hx' bz)]
    refine intervalIntegral.integral_congr fun y hy' => ?_
    rw [Set.uIcc_of_le hy] at hy'
    exact along_z hz fun z hz' => ne hxm hy' hz' (.inl hx')
  have fy : ∀ {y}, y = a.y ∨ y = b.y → ∫ x in a.x..b.x, ∫ z in a.z..b.z, (wire ⟨dx, dy, 0⟩ q ⟨x, y, z⟩).y = -dx / (4 * π) * (X y a.z - X y b.z) := fun {y} hy' => by
    have hym : y ∈ Set.Icc a.y b.y := by rcases hy' with rfl | rfl <;> assumption
    simp only [wire_y, intervalIntegral.integral_const_mul]
    congr 1
    rw [← intervalIntegral.integral_sub (hX hy' az) (hX hy' bz)]
    refine intervalIntegral.integral_congr fun x hx' => ?_
    rw [Set.uIcc_of_le hx] at hx'
    exact along_z hz fun z hz' => ne hx' hym hz' (.inr (.inl hy'))
  have fz : ∀ {z}, z = a.z ∨ z = b.z → ∫ x in a.x..b.x, ∫ y in a.y..b.y, (wire ⟨dx, dy, 0⟩ q ⟨x, y, z⟩).z =
      dx / (4 * π) * (X a.y z - X b.y z) - dy / (4 * π) * (Y a.x z - Y b.x z) := fun {z} hz' => by
    have hzm : z ∈ Set.Icc a.z b.z := by rcases hz' with rfl | rfl <;> assumption
    have hd : ∀ v ∈ Set.Icc a.x b.x ×ˢ Set.Icc a.y b.y, dist3 q v.1 v.2 z ^ 3 ≠ 0 := fun v hv => pow_ne_zero _ (dist3_pos (ne hv.1 hv.2 hzm (.inr (.inr hz')))).ne'
    have hc : Continuous fun v : ℝ × ℝ => dist3 q v.1 v.2 z ^ 3 := ((dist3_continuous q).comp (by fun_prop : Continuous fun v : ℝ × ℝ => (v.1, v.2, z))).pow 3
    have c1 : ContinuousOn (fun v : ℝ × ℝ => (v.2 - q.y) / dist3 q v.1 v.2 z ^ 3) (Set.Icc a.x b.x ×ˢ Set.Icc a.y b.y) := ContinuousOn.div (by fun_prop) hc.continuousOn hd
    have c2 : ContinuousOn (fun v : ℝ × ℝ => (v.1 - q.x) / dist3 q v.1 v.2 z ^ 3) (Set.Icc a.x b.x ×ˢ Set.Icc a.y b.y) := ContinuousOn.div (by fun_prop) hc.continuousOn hd
    have row : ∀ {f : ℝ × ℝ → ℝ}, ContinuousOn f (Set.Icc a.x b.x ×ˢ Set.Icc a.y b.y) → ∀ x ∈ Set.Icc a.x b.x, IntervalIntegrable (fun y => f (x, y)) volume a.y b.y := fun hf x hx' => by
      refine ContinuousOn.intervalIntegrable ?_
      rw [Set.uIcc_of_le hy]
      exact hf.comp (by fun_prop) fun y hy' => ⟨hx', hy'⟩
    -- first term: along y, second term: along x
    have t1 : ∀ x ∈ Set.Icc a.x b.x, ∫ y in a.y..b.y, (y - q.y) / dist3 q x y z ^ 3 = 1 / dist3 q x a.y z - 1 / dist3 q x b.y z := fun x hx' =>
      along_y hy fun y hy' => ne hx' hy' hzm (.inr (.inr hz'))
    have t2 : ∀ y ∈ Set.Icc a.y b.y, ∫ x in a.x..b.x, (x - q.x) / dist3 q x y z ^ 3 = 1 / dist3 q a.x y z - 1 / dist3 q b.x y z := fun y hy' =>
      along_x hx fun x hx' => ne hx' hy' hzm (.inr (.inr hz'))
    have s1 : ∫ x in a.x..b.x, ∫ y in a.y..b.y, (y - q.y) / dist3 q x y z ^ 3 = X a.y z - X b.y z := by
      rw [← intervalIntegral.integral_sub (hX (.inl rfl) hzm) (hX (.inr rfl) hzm)]
      refine intervalIntegral.integral_congr fun x hx' => ?_
      rw [Set.uIcc_of_le hx] at hx'
      exact t1 x hx'
    have io : IntegrableOn (fun v : ℝ × ℝ => (v.1 - q.x) / dist3 q v.1 v.2 z ^ 3) (Set.Icc a.x b.x ×ˢ Set.Icc a.y b.y) := c2.integrableOn_compact (isCompact_Icc.prod isCompact_Icc)
    have s2 : ∫ x in a.x..b.x, ∫ y in a.y..b.y, (x - q.x) / dist3 q x y z ^ 3 = Y a.x z - Y b.x z := by
      have sw : ∫ x in a.x..b.x, ∫ y in a.y..b.y, (x - q.x) / dist3 q x y z ^ 3 = ∫ y in a.y..b.y, ∫ x in a.x..b.x, (x - q.x) / dist3 q x y z ^ 3 := by
        refine MeasureTheory.intervalIntegral_intervalIntegral_swap ?_
        refine io.mono_set ?_
        rw [← Set.uIcc_of_le hx, ← Set.uIcc_of_le hy]
        exact Set.prod_mono Set.uIoc_subset_uIcc Set.uIoc_subset_uIcc
      rw [sw, ← intervalIntegral.integral_sub (hY (.inl rfl) hzm) (hY (.inr rfl) hzm)]
      refine intervalIntegral.integral_congr fun y hy' => ?_
      rw [Set.uIcc_of_le hy] at hy'
      exact t2 y hy'
    have i1 : IntervalIntegrable (fun x => ∫ y in a.y..b.y, (y - q.y) / dist3 q x y z ^ 3) volume a.x b.x := by
      refine ((hX (.inl rfl) hzm).sub (hX (.inr rfl) hzm)).congr fun x hx' => ?_
      rw [Set.uIoc_of_le hx] at hx'
      exact (t1 x (Set.Ioc_subset_Icc_self hx')).symm
    have i2 : IntervalIntegrable (fun x => ∫ y in a.y..b.y, (x - q.x) / dist3 q x y z ^ 3) volume a.x b.x := by
      have io' : Integrable (fun v : ℝ × ℝ => (v.1 - q.x) / dist3 q v.1 v.2 z ^ 3) ((volume.restrict (Set.Ioc a.x b.x)).prod (volume.restrict (Set.Ioc a.y b.y))) := by
        rw [Measure.prod_restrict]
        exact io.mono_set (Set.prod_mono Set.Ioc_subset_Icc_self Set.Ioc_subset_Icc_self)
      rw [intervalIntegrable_iff_integrableOn_Ioc_of_le hx]
      simp only [intervalIntegral.integral_of_le hy]
      exact io'.integral_prod_left
    have e : ∀ x ∈ Set.Icc a.x b.x, ∫ y in a.y..b.y, (wire ⟨dx, dy, 0⟩ q ⟨x, y, z⟩).z =
        dx / (4 * π) * (∫ y in a.y..b.y, (y - q.y) / dist3 q x y z ^ 3) - dy / (4 * π) * ∫ y in a.y..b.y, (x - q.x) / dist3 q x y z ^ 3 := fun x hx' => by
      simp only [wire_z]
      rw [intervalIntegral.integral_sub ((row c1 x hx').const_mul _) ((row c2 x hx').const_mul _)]
      simp only [intervalIntegral.integral_const_mul]
    rw [intervalIntegral.integral_congr fun x hx' => e x (by rwa [Set.uIcc_of_le hx] at hx'), intervalIntegral.integral_sub (i1.const_mul _) (i2.const_mul _), intervalIntegral.integral_const_mul,
      intervalIntegral.integral_const_mul, s1, s2]
  unfold boxFlux
  rw [fx (.inl rfl), fx (.inr rfl), fy (.inl rfl), fy (.inr rfl), fz (.inl rfl), fz (.inr rfl)]
  ring

theorem biotSavart_wire (r z φ : ℝ) : biotSavart r z φ = wire ⟨-r * sin φ, r * cos φ, 0⟩ (ringPoint r z φ) := rfl

theorem biot_continuousOn (r z : ℝ) {S : Set (ℝ × ℝ × ℝ)} (P : ℝ × ℝ × ℝ → V3) (hx : Continuous fun v => (P v).x) (hy : Continuous fun v => (P v).y) (hz : Continuous fun v => (P v).z)
    (hne : ∀ v ∈ S, ringPoint r z v.1 ≠ P v) :
    ContinuousOn (fun v => (biotSavart r z v.1 (P v)).x) S ∧ ContinuousOn (fun v => (biotSavart r z v.1 (P v)).y) S ∧ ContinuousOn (fun v => (biotSavart r z v.1 (P v)).z) S := by
  have hn : Continuous fun v : ℝ × ℝ × ℝ => 4 * π * V3.norm (P v - ringPoint r z v.1) ^ 3 := by
    unfold V3.norm V3.dot ringPoint
    simp only [V3.sub_x, V3.sub_y, V3.sub_z]
    fun_prop
  have h0 : ∀ v ∈ S, 4 * π * V3.norm (P v - ringPoint r z v.1) ^ 3 ≠ 0 := by
    intro v hv
    have : 0 < V3.norm (P v - ringPoint r z v.1) := V3.norm_pos fun h => hne v hv (V3.sub_eq_zero.1 h).symm
    have := Real.pi_pos
    positivity
  have key : ∀ f : ℝ × ℝ × ℝ → ℝ, Continuous f → ContinuousOn (fun v => 1 / (4 * π * V3.norm (P v - ringPoint r z v.1) ^ 3) * f v) S := fun f hf =>
    (continuousOn_const.div hn.continuousOn h0).mul hf.continuousOn
  refine ⟨key (fun v => (cross ⟨-r * sin v.1, r * cos v.1, 0⟩ (P v - ringPoint r z v.1)).x) ?_, key (fun v => (cross ⟨-r * sin v.1, r * cos v.1, 0⟩ (P v - ringPoint r z v.1)).y) ?_,
    key (fun v => (cross ⟨-r * sin v.1, r * cos v.1, 0⟩ (P v - ringPoint r z v.1)).z) ?_⟩ <;>
  · unfold ringPoint cross
    simp only [V3.sub_x, V3.sub_y, V3.sub_z]
    fun_prop

/-- No magnetic flux leaves a box because of a current loop that does not touch the surface of the box. -/
theorem ringField_flux {a b : V3} (hx : a.x ≤ b.x) (hy : a.y ≤ b.y) (hz : a.z ≤ b.z) {r z : ℝ} (h : ∀ φ, InsideBox a b (ringPoint r z φ) ∨ OutsideBox a b (ringPoint r z φ)) :
    Flat6 (ringField r z) a b ∧ boxFlux (ringField r z) a b = 0 := by
  have hX : ∀ c, c = a.x ∨ c = b.x → _ := fun c hc => swap3 (K := fun φ y z' => (biotSavart r z φ ⟨c, y, z'⟩).x) hy hz
    (biot_continuousOn r z (fun v => ⟨c, v.2.1, v.2.2⟩) (by fun_prop) (by fun_prop) (by fun_prop) fun v hv =>
      face_ne (h v.1) (by rcases hc with rfl | rfl <;> simp [hx]) hv.2.1 hv.2.2 (.inl hc)).1 0 (2 * π)
  have hY : ∀ c, c = a.y ∨ c = b.y → _ := fun c hc => swap3 (K := fun φ x z' => (biotSavart r z φ ⟨x, c, z'⟩).y) hx hz
    (biot_continuousOn r z (fun v => ⟨v.2.1, c, v.2.2⟩) (by fun_prop) (by fun_prop) (by fun_prop) fun v hv =>
      face_ne (h v.1) hv.2.1 (by rcases hc with rfl | rfl <;> simp [hy]) hv.2.2 (.inr (.inl hc))).2.1 0 (2 * π)
  have hZ : ∀ c, c = a.z ∨ c = b.z → _ := fun c hc => swap3 (K := fun φ x y => (biotSavart r z φ ⟨x, y, c⟩).z) hx hy
    (biot_continuousOn r z (fun v => ⟨v.2.1, v.2.2, c⟩) (by fun_prop) (by fun_prop) (by fun_prop) fun v hv =>
      face_ne (h v.1) hv.2.1 hv.2.2 (by rcases hc with rfl | rfl <;> simp [hz]) (.inr (.inr hc))).2.2 0 (2 * π)
  obtain ⟨a1, a2, a3⟩ := hX a.x (.inl rfl)
  obtain ⟨b1, b2, b3⟩ := hX b.x (.inr rfl)
  obtain ⟨c1, c2, c3⟩ := hY a.y (.inl rfl)
  obtain ⟨d1, d2, d3⟩ := hY b.y (.inr rfl)
  obtain ⟨e1, e2, e3⟩ := hZ a.z (.inl rfl)
  obtain ⟨f1, f2, f3⟩ := hZ b.z (.inr rfl)
  constructor
  · constructor <;> simp only [ringField] <;> assumption
  · have e0 : boxFlux (ringField r z) a b = ∫ φ in (0 : ℝ)..2 * π, boxFlux (biotSavart r z φ) a b := by
      unfold boxFlux
      simp only [ringField]
      rw [a3, b3, c3, d3, e3, f3]
      rw [six a2 b2 c2 d2 e2 f2]
    rw [e0]
    simp only [biotSavart_wire, wire_flux hx hy hz _ _ (h _)]
    simp

end LoopFlux
end Traceon
