import Verif.Spec.Focus
import Verif.Lemmas.List

namespace Traceon
open Spec

theorem residual_append (as bs : List LinRow) (u : ℝ × ℝ × ℝ) :
    sumSqResidual (as ++ bs) u = sumSqResidual as u + sumSqResidual bs u := by
  simp [sumSqResidual]

/-- The sum of the squared residuals is the sum of the squared distances to the rays. -/
theorem residual_focus {last : List Phase} (hz : ∀ p ∈ last, p.vel.z ≠ 0) (q : V3) :
    sumSqResidual (focusSystem last) (q.z, q.x, q.y) = (last.map fun p => rayDistSq p q).sum := by
  unfold focusSystem
  rw [residual_append]
  induction last with
  | nil => simp [sumSqResidual]
  | cons p ps ih =>
    have ih' := ih fun p hp => hz p (List.mem_cons_of_mem _ hp)
    have hp : p.vel.z ≠ 0 := hz p (by simp)
    simp only [sumSqResidual, List.map_cons, List.sum_cons, List.map_map, Function.comp_def] at ih' ⊢
    rw [← ih']
    unfold rayDistSq
    simp only [div_eq_mul_inv]
    ring

theorem rayDistSq_nonneg (p : Phase) (q : V3) : 0 ≤ rayDistSq p q := by
  unfold rayDistSq; positivity

theorem rayDistSq_eq_zero {p : Phase} (hp : p.vel.z ≠ 0) {q : V3} : rayDistSq p q = 0 ↔ OnRay p q := by
  unfold rayDistSq OnRay
  constructor
  · intro h
    set t := (q.z - p.pos.z) / p.vel.z with ht
    have h1 : q.x - (p.pos.x + t * p.vel.x) = 0 := by
      have := sq_nonneg (q.y - (p.pos.y + t * p.vel.y))
      have := sq_nonneg (q.x - (p.pos.x + t * p.vel.x))
      exact pow_eq_zero_iff (two_ne_zero) |>.1 (by linarith)
    have h2 : q.y - (p.pos.y + t * p.vel.y) = 0 := by
      have := sq_nonneg (q.y - (p.pos.y + t * p.vel.y))
      have := sq_nonneg (q.x - (p.pos.x + t * p.vel.x))
      exact pow_eq_zero_iff (two_ne_zero) |>.1 (by linarith)
    refine ⟨t, ?_⟩
    ext
    · simp; linarith
    · simp; linarith
    · simp [ht, div_mul_cancel₀ _ hp]
  · rintro ⟨t, rfl⟩
    have : (p.pos + t * p.vel).z - p.pos.z = t * p.vel.z := by simp
    rw [this, mul_div_assoc, div_self hp]
    simp

theorem sum_eq_zero_of_nonneg {α : Type _} (l : List α) (f : α → ℝ) (hf : ∀ a ∈ l, 0 ≤ f a)
    (h : (l.map f).sum = 0) : ∀ a ∈ l, f a = 0 := by
  induction l with
  | nil => simp
  | cons b l ih =>
    simp only [List.map_cons, List.sum_cons] at h
    have h1 : 0 ≤ f b := hf b (by simp)
    have h2 : 0 ≤ (l.map f).sum := List.sum_nonneg (by
      intro x hx
      obtain ⟨a, ha, rfl⟩ := List.mem_map.1 hx
      exact hf a (List.mem_cons_of_mem _ ha))
    intro a ha
    rcases List.mem_cons.1 ha with rfl | ha
    · linarith
    · exact ih (fun a ha => hf a (List.mem_cons_of_mem _ ha)) (by linarith) a ha

/-- The distances to a ray of two points and of the point halfway. -/
theorem rayDistSq_mid (p : Phase) (q r : V3) :
    rayDistSq p ((1 / 2 : ℝ) * (q + r)) = (rayDistSq p q + rayDistSq p r) / 2 -
      (1 / 4) * (((q.x - r.x) - (q.z - r.z) / p.vel.z * p.vel.x) ^ 2 +
        ((q.y - r.y) - (q.z - r.z) / p.vel.z * p.vel.y) ^ 2) := by
  unfold rayDistSq
  simp only [V3.smul_x, V3.smul_y, V3.smul_z, V3.add_x, V3.add_y, V3.add_z, div_eq_mul_inv]
  ring

/-- With two rays that are not parallel, the point with the least sum of squared distances is unique. -/
theorem focus_unique {last : List Phase} (hz : ∀ p ∈ last, p.vel.z ≠ 0)
    (hpar : ∃ p ∈ last, ∃ p' ∈ last, ¬ Parallel p.vel p'.vel) {q r : V3}
    (hq : ∀ s, (last.map fun p => rayDistSq p q).sum ≤ (last.map fun p => rayDistSq p s).sum)
    (hr : ∀ s, (last.map fun p => rayDistSq p r).sum ≤ (last.map fun p => rayDistSq p s).sum) : q = r := by
  have hmid := hq ((1 / 2 : ℝ) * (q + r))
  have heq : (last.map fun p => rayDistSq p q).sum = (last.map fun p => rayDistSq p r).sum :=
    le_antisymm (hq r) (hr q)
  have key : ((last.map fun p => ((q.x - r.x) - (q.z - r.z) / p.vel.z * p.vel.x) ^ 2 +
        ((q.y - r.y) - (q.z - r.z) / p.vel.z * p.vel.y) ^ 2)).sum =
      2 * ((last.map fun p => rayDistSq p q).sum + (last.map fun p => rayDistSq p r).sum) -
      4 * (last.map fun p => rayDistSq p ((1 / 2 : ℝ) * (q + r))).sum := by
    clear hq hr hmid heq hpar hz
    induction last with
    | nil => simp
    | cons p ps ih =>
      simp only [List.map_cons, List.sum_cons, ih, rayDistSq_mid p]
      ring
  have hnn : 0 ≤ ((last.map fun p => ((q.x - r.x) - (q.z - r.z) / p.vel.z * p.vel.x) ^ 2 +
        ((q.y - r.y) - (q.z - r.z) / p.vel.z * p.vel.y) ^ 2)).sum := by
    apply List.sum_nonneg
    intro x hx
    obtain ⟨a, _, rfl⟩ := List.mem_map.1 hx
    positivity
  have hzero := sum_eq_zero_of_nonneg last _ (fun p _ => by positivity) (le_antisymm (by linarith) hnn)
  have hx : ∀ p ∈ last, q.x - r.x = (q.z - r.z) / p.vel.z * p.vel.x := by
    intro p hp
    have := hzero p hp
    have h1 := sq_nonneg ((q.x - r.x) - (q.z - r.z) / p.vel.z * p.vel.x)
    have h2 := sq_nonneg ((q.y - r.y) - (q.z - r.z) / p.vel.z * p.vel.y)
    have := pow_eq_zero_iff (two_ne_zero) |>.1 (show ((q.x - r.x) - (q.z - r.z) / p.vel.z * p.vel.x) ^ 2 = 0 by linarith)
    linarith
  have hy : ∀ p ∈ last, q.y - r.y = (q.z - r.z) / p.vel.z * p.vel.y := by
    intro p hp
    have := hzero p hp
    have h1 := sq_nonneg ((q.x - r.x) - (q.z - r.z) / p.vel.z * p.vel.x)
    have h2 := sq_nonneg ((q.y - r.y) - (q.z - r.z) / p.vel.z * p.vel.y)
    have := pow_eq_zero_iff (two_ne_zero) |>.1 (show ((q.y - r.y) - (q.z - r.z) / p.vel.z * p.vel.y) ^ 2 = 0 by linarith)
    linarith
  obtain ⟨p, hp, p', hp', hne⟩ := hpar
  have hpz := hz p hp
  have hpz' := hz p' hp'
  have hdz : q.z - r.z = 0 := by
    by_contra hne0
    apply hne
    have ex : p.vel.x * p'.vel.z = p'.vel.x * p.vel.z := by
      have := (hx p hp).symm.trans (hx p' hp')
      field_simp at this
      linarith
    have ey : p.vel.y * p'.vel.z = p'.vel.y * p.vel.z := by
      have := (hy p hp).symm.trans (hy p' hp')
      field_simp at this
      linarith
    unfold Parallel V3.cross
    ext
    · simp; linarith
    · simp; linarith
    · simp only [V3.zero_z]
      have : (p.vel.x * p'.vel.y - p.vel.y * p'.vel.x) * (p.vel.z * p'.vel.z) = 0 := by
        linear_combination (p'.vel.y * p.vel.z) * ex - (p'.vel.x * p.vel.z) * ey
      rcases mul_eq_zero.1 this with h | h
      · exact h
      · exact absurd h (mul_ne_zero hpz hpz')
  have h1 := hx p hp
  have h2 := hy p hp
  rw [hdz] at h1 h2
  ext
  · simpa [_root_.sub_eq_zero] using h1
  · simpa [_root_.sub_eq_zero] using h2
  · linarith

theorem mapM_getLast? (positions : List (List Phase)) (last : List Phase)
    (h : positions.map List.getLast? = last.map some) : positions.mapM List.getLast? = some last := by
  induction positions generalizing last with
  | nil => cases last <;> simp_all
  | cons p ps ih =>
    cases last with
    | nil => simp at h
    | cons l ls =>
      simp only [List.map_cons, List.cons.injEq] at h
      simp [List.mapM_cons, h.1, ih ls h.2]

/-- The function returns, and its value minimises the sum of squared distances to the straight extensions. -/
theorem C57_least_squares {lstsq : List LinRow → ℝ × ℝ × ℝ} (lib : IsLstsq lstsq)
    {positions : List (List Phase)} {last : List Phase} (hlast : positions.map List.getLast? = last.map some)
    (hz : ∀ p ∈ last, p.vel.z ≠ 0) :
    ∃ f, focusPosition lstsq positions = some f ∧
      ∀ q, (last.map fun p => rayDistSq p f).sum ≤ (last.map fun p => rayDistSq p q).sum := by
  refine ⟨_, by unfold focusPosition; rw [mapM_getLast? _ _ hlast]; rfl, ?_⟩
  intro q
  rw [← residual_focus hz, ← residual_focus hz]
  exact lib.min _ _

/-- **C57.** Trajectories whose straight extensions (beyond the last position, in either direction) all pass through
one point are focused to that point, if not all are parallel. -/
theorem C57_focus {lstsq : List LinRow → ℝ × ℝ × ℝ} (lib : IsLstsq lstsq)
    {positions : List (List Phase)} {last : List Phase} (hlast : positions.map List.getLast? = last.map some)
    (hz : ∀ p ∈ last, p.vel.z ≠ 0) (hpar : ∃ p ∈ last, ∃ p' ∈ last, ¬ Parallel p.vel p'.vel)
    {q : V3} (hq : ∀ p ∈ last, OnRay p q) : focusPosition lstsq positions = some q := by
  obtain ⟨f, hf, hmin⟩ := C57_least_squares lib hlast hz
  rw [hf]
  congr 1
  refine focus_unique hz hpar hmin ?_
  intro s
  have h0 : (last.map fun p => rayDistSq p q).sum = 0 := by
    have : last.map (fun p => rayDistSq p q) = last.map fun _ => (0 : ℝ) :=
      List.map_congr_left fun p hp => (rayDistSq_eq_zero (hz p hp)).2 (hq p hp)
    rw [this]; simp
  rw [h0]
  apply List.sum_nonneg
  intro x hx
  obtain ⟨a, _, rfl⟩ := List.mem_map.1 hx
  exact rayDistSq_nonneg a s

/-- If all trajectories end on one and the same straight line, the result is the point of this line closest to the
origin of the coordinate system (not a focus at all). -/
theorem C57_same_line {lstsq : List LinRow → ℝ × ℝ × ℝ} (lib : IsLstsq lstsq)
    {positions : List (List Phase)} {last : List Phase} (hlast : positions.map List.getLast? = last.map some)
    (hz : ∀ p ∈ last, p.vel.z ≠ 0) (p₀ : Phase) (h₀ : p₀ ∈ last)
    (hsame : ∀ p ∈ last, ∀ q, OnRay p q ↔ OnRay p₀ q) :
    ∃ f, focusPosition lstsq positions = some f ∧ OnRay p₀ f ∧ ∀ q, OnRay p₀ q → V3.norm f ≤ V3.norm q := by
  have zero : ∀ q, OnRay p₀ q → (last.map fun p => rayDistSq p q).sum = 0 := by
    intro q hq
    have : last.map (fun p => rayDistSq p q) = last.map fun _ => (0 : ℝ) :=
      List.map_congr_left fun p hp => (rayDistSq_eq_zero (hz p hp)).2 ((hsame p hp q).2 hq)
    rw [this]; simp
  have nonneg : ∀ q, 0 ≤ (last.map fun p => rayDistSq p q).sum := by
    intro q
    apply List.sum_nonneg
    intro x hx
    obtain ⟨a, _, rfl⟩ := List.mem_map.1 hx
    exact rayDistSq_nonneg a q
  have on : OnRay p₀ p₀.pos := ⟨0, by ext <;> simp⟩
  refine ⟨_, by unfold focusPosition; rw [mapM_getLast? _ _ hlast]; rfl, ?_, ?_⟩
  · have h1 := lib.min (focusSystem last) (p₀.pos.z, p₀.pos.x, p₀.pos.y)
    rw [residual_focus hz, zero _ on] at h1
    have h2 := residual_focus hz ⟨(lstsq (focusSystem last)).2.1, (lstsq (focusSystem last)).2.2, (lstsq (focusSystem last)).1⟩
    simp only at h2
    have h3 := nonneg ⟨(lstsq (focusSystem last)).2.1, (lstsq (focusSystem last)).2.2, (lstsq (focusSystem last)).1⟩
    exact (rayDistSq_eq_zero (hz p₀ h₀)).1
      (sum_eq_zero_of_nonneg last _ (fun p _ => rayDistSq_nonneg p _) (by linarith) p₀ h₀)
  · intro q hq
    have := lib.least (focusSystem last) (q.z, q.x, q.y) (by
      intro v
      have e := residual_focus hz ⟨v.2.1, v.2.2, v.1⟩
      rw [residual_focus hz, zero q hq]
      simp only at e
      rw [e]
      exact nonneg _)
    unfold V3.norm
    apply Real.sqrt_le_sqrt
    simp only [V3.dot]
    simp only at this
    linarith

/-- A bundle of two crossing rays meets the hypotheses. -/
example : ∃ (positions : List (List Phase)) (last : List Phase) (q : V3),
    positions.map List.getLast? = last.map some ∧ (∀ p ∈ last, p.vel.z ≠ 0) ∧
    (∃ p ∈ last, ∃ p' ∈ last, ¬ Parallel p.vel p'.vel) ∧ ∀ p ∈ last, OnRay p q := by
  let a : Phase := ⟨⟨0, 1, 0⟩, ⟨1, 0, -1⟩⟩
  let b : Phase := ⟨⟨2, 1, 0⟩, ⟨-2, 0, -2⟩⟩
  refine ⟨[[b, a], [b]], [a, b], ⟨1, 1, -1⟩, rfl, ?_, ⟨a, by simp, b, by simp, ?_⟩, ?_⟩
  · intro p hp
    simp only [List.mem_cons, List.not_mem_nil, or_false] at hp
    rcases hp with rfl | rfl <;> simp [a, b]
  · intro h
    have := congrArg V3.y h
    simp [V3.cross, a, b] at this
  · intro p hp
    simp only [List.mem_cons, List.not_mem_nil, or_false] at hp
    rcases hp with rfl | rfl
    · exact ⟨1, by ext <;> simp [a]⟩
    · exact ⟨1 / 2, by ext <;> simp [b]; norm_num⟩

end Traceon
