import Verif.Props.Irregular

/-!
# Theorems about paths given by an arbitrary parametrisation, continued: C74

Breakpoints, averages along a path, and the existence of an interpolation that meets the contract.
-/
namespace Traceon
open Spec V3

/-! ## The contract can be met -/

/-- The interpolation polynomial of all data, as one interpolation that meets the contract. -/
noncomputable def lagrangeMaker : SplineMaker := fun xs ys x =>
  (Lagrange.interpolate (Finset.range xs.length) (fun i => xs.getD i 0) (fun i => ys.getD i 0)).eval x

theorem getD_injOn {xs : List ℝ} (h : xs.Pairwise (· < ·)) :
    Set.InjOn (fun i => xs.getD i 0) (Finset.range xs.length : Finset ℕ) := by
  intro i hi j hj hij
  simp only [Finset.coe_range, Set.mem_Iio] at hi hj
  simp only [List.getD_eq_getElem?_getD, List.getElem?_eq_getElem hi, List.getElem?_eq_getElem hj, Option.getD_some] at hij
  have hp := List.pairwise_iff_getElem.1 h
  rcases lt_trichotomy i j with h' | h' | h'
  · exact absurd hij (hp i j hi hj h').ne
  · exact h'
  · exact absurd hij.symm (hp j i hj hi h').ne

/-- The contract is satisfiable. -/
theorem lagrange_contract : SplineContract lagrangeMaker where
  knots := by
    intro xs ys _ h2 h3 i x y hx hy
    obtain ⟨hi, rfl⟩ := List.getElem?_eq_some_iff.1 hx
    obtain ⟨hj, rfl⟩ := List.getElem?_eq_some_iff.1 hy
    have := Lagrange.eval_interpolate_at_node (r := fun i => ys.getD i 0) (getD_injOn h3)
      (Finset.mem_range.2 hi)
    simp only [List.getD_eq_getElem?_getD, hx, hy, Option.getD_some] at this
    exact this
  smooth := by
    intro xs ys _ _ _
    unfold lagrangeMaker
    generalize Lagrange.interpolate (Finset.range xs.length) (fun i => xs.getD i 0) (fun i => ys.getD i 0) = q
    have := Polynomial.contDiff_aeval (R := ℝ) (𝕜 := ℝ) q 1
    simpa [Polynomial.aeval_def, Polynomial.eval₂_id] using this
  poly := by
    intro xs p _ h2 _ h4
    have h := Lagrange.eq_interpolate (s := Finset.range xs.length) (v := fun i => xs.getD i 0)
      (getD_injOn h2) (f := p) (by
        rw [Finset.card_range]
        exact lt_of_le_of_lt Polynomial.degree_le_natDegree (by exact_mod_cast h4))
    funext x
    unfold lagrangeMaker
    conv_rhs => rw [h]
    congr 1
    refine Lagrange.interpolate_eq_of_values_eq_on _ _ ?_
    intro i hi
    rw [Finset.mem_range] at hi
    simp [List.getD_eq_getElem?_getD, List.getElem?_eq_getElem hi]

/-- A segment in space as a path made from its parametrisation. -/
example : ∃ p, Path.fromIrregular lagrangeMaker (fun u => some ((1 - u) * (⟨1, 2, 3⟩ : V3) + u * (⟨4, 6, 3⟩ : V3))) 100 = some p ∧
    p.length = (Path.line ⟨1, 2, 3⟩ ⟨4, 6, 3⟩).length := by
  obtain ⟨p, h, h1, _⟩ := C74_uniform_segment lagrange_contract (a := ⟨1, 2, 3⟩) (b := ⟨4, 6, 3⟩)
    (by intro h; have := congrArg V3.x h; norm_num at this) (N := 100) (by norm_num)
  exact ⟨p, h, h1⟩

/-! ## Breakpoints -/

/-- A parametrisation of a segment of the x axis that does not move at a constant speed. -/
noncomputable def exSlow (u : ℝ) : V3 := ⟨u ^ 2 + u / 3, 0, 0⟩

open Polynomial in
/-- **C74, breakpoints, refuted.** The documentation says that the breakpoints are parameters between
zero and one, and that the points there are always included in the mesh. The code multiplies them by
the length, which is only right for a parametrisation of constant speed: for `exSlow` the breakpoint
`1/2` of the parametrisation becomes the point of parameter `2/3`. -/
theorem C74_breakpoints_refuted {cs : SplineMaker} (hc : SplineContract cs) :
    ∃ p b, Path.fromIrregular cs (fun u => some (exSlow u)) 100 [1/2] = some p ∧
      p.breaks = [b] ∧ p.func b = some (exSlow (2/3)) ∧ exSlow (2/3) ≠ exSlow (1/2) := by
  have hdeg : (X ^ 2 + C (1/3) * X : ℝ[X]).natDegree ≤ 2 := by
    refine natDegree_add_le_of_degree_le (natDegree_X_pow_le 2) ?_
    exact ((natDegree_C_mul_le _ _).trans natDegree_X_le).trans (by norm_num)
  have hdeg2 : (C 2 * X + C (1/3) : ℝ[X]).natDegree ≤ 1 := natDegree_linear_le
  have key := fromIrregular_exact hc (F := exSlow) (N := 100) (by norm_num)
    (px := X ^ 2 + C (1/3) * X) (py := 0) (pz := 0) (v := C 2 * X + C (1/3))
    (by intro u; unfold exSlow; ext <;> simp <;> ring) (by omega) (by simp) (by simp) (by omega)
    (by
      intro u hu
      have e : (⟨(derivative (X ^ 2 + C (1/3) * X : ℝ[X])).eval u, (derivative (0 : ℝ[X])).eval u,
          (derivative (0 : ℝ[X])).eval u⟩ : V3) = ⟨2 * u + 1/3, 0, 0⟩ := by
        ext <;> simp
        left; norm_num
      rw [e]
      unfold V3.norm dot
      have := hu.1
      rw [show (2 * u + 1/3) * (2 * u + 1/3) + 0 * 0 + 0 * 0 = (2 * u + 1/3) ^ 2 by ring,
        Real.sqrt_sq (by linarith)]
      simp)
    (A := fun t => t ^ 2 + t / 3)
    (by
      intro t
      simp only [eval_add, eval_mul, eval_C, eval_X]
      rw [intervalIntegral.integral_add (Continuous.intervalIntegrable (by fun_prop) _ _) (Continuous.intervalIntegrable (by fun_prop) _ _), intervalIntegral.integral_const_mul,
        integral_id, intervalIntegral.integral_const]
      simp
      ring)
    (by
      intro x hx y hy hxy
      have := hx.1
      simp only
      nlinarith) [1/2]
  refine ⟨_, _, key, rfl, ?_, ?_⟩
  · simp only
    have hlen := linspace_length 0 1 100
    have hk := hc.knots ((linspace 0 1 100).map (fun t => t ^ 2 + t / 3)) (linspace 0 1 100)
      (by rw [List.length_map, hlen]; norm_num) (by rw [List.length_map])
      (by
        rw [List.pairwise_map]
        refine (linspace_pairwise (by norm_num)).imp_of_mem ?_
        intro a b ha hb hab
        have h0 : 0 ≤ a := by
          unfold linspace at ha
          rw [List.mem_map] at ha
          obtain ⟨k, _, rfl⟩ := ha
          positivity
        nlinarith)
      66 (1/2 * (1 ^ 2 + 1/3)) (2/3)
      (by rw [List.getElem?_map, linspace_get (by norm_num)]; norm_num)
      (by rw [linspace_get (by norm_num)]; norm_num)
    rw [hk]
  · intro h
    have := congrArg V3.x h
    unfold exSlow at this
    norm_num at this

/-! ## The average of a function along a path -/

/-- The values of a function along a path. -/
noncomputable def alongPath (p : Path) (f : V3 → ℝ) (s : ℝ) : ℝ := ((p.func s).map f).getD 0

theorem average_eq {p : Path} (hl : p.length ≠ 0) (hd : ∀ s, 0 ≤ s → s ≤ p.length → ∃ q, p.func s = some q)
    (f : V3 → ℝ) : p.average f = some ((∫ s in (0:ℝ)..p.length, alongPath p f s) / p.length) := by
  unfold Path.average
  rw [if_neg]
  · rfl
  · rintro (h | ⟨s, hs, h⟩)
    · exact hl h
    · obtain ⟨q, hq⟩ := hd s hs.1 hs.2
      rw [hq] at h; cases h

/-- **C74, averages.** The average lies between any bounds for the function on the path. -/
theorem C74_average_bounds {p : Path} (hl : 0 < p.length)
    (hd : ∀ s, 0 ≤ s → s ≤ p.length → ∃ q, p.func s = some q) {f : V3 → ℝ} {m M : ℝ}
    (hi : IntervalIntegrable (alongPath p f) MeasureTheory.volume 0 p.length)
    (hb : ∀ s q, 0 ≤ s → s ≤ p.length → p.func s = some q → m ≤ f q ∧ f q ≤ M) :
    ∃ a, p.average f = some a ∧ m ≤ a ∧ a ≤ M := by
  refine ⟨_, average_eq hl.ne' hd f, ?_, ?_⟩
  · rw [le_div_iff₀ hl]
    have := intervalIntegral.integral_mono_on hl.le (intervalIntegrable_const (c := m)) hi (by
      intro s hs
      obtain ⟨q, hq⟩ := hd s hs.1 hs.2
      simp only [alongPath, hq, Option.map_some, Option.getD_some]
      exact (hb s q hs.1 hs.2 hq).1)
    simpa [mul_comm] using this
  · rw [div_le_iff₀ hl]
    have := intervalIntegral.integral_mono_on hl.le hi (intervalIntegrable_const (c := M)) (by
      intro s hs
      obtain ⟨q, hq⟩ := hd s hs.1 hs.2
      simp only [alongPath, hq, Option.map_some, Option.getD_some]
      exact (hb s q hs.1 hs.2 hq).2)
    simpa [mul_comm] using this

/-- **C74, averages.** The average of a constant is that constant, for every path of non-zero length. -/
theorem C74_average_const {p : Path} (hl : 0 < p.length)
    (hd : ∀ s, 0 ≤ s → s ≤ p.length → ∃ q, p.func s = some q) (c : ℝ) :
    p.average (fun _ => c) = some c := by
  rw [average_eq hl.ne' hd]
  congr 1
  have : ∫ s in (0:ℝ)..p.length, alongPath p (fun _ => c) s = ∫ _ in (0:ℝ)..p.length, c := by
    refine intervalIntegral.integral_congr ?_
    intro s hs
    rw [Set.uIcc_of_le hl.le] at hs
    obtain ⟨q, hq⟩ := hd s hs.1 hs.2
    simp [alongPath, hq]
  rw [this]
  simp
  field_simp

/-- **C74, averages.** Averaging is linear. -/
theorem C74_average_linear {p : Path} (hl : 0 < p.length)
    (hd : ∀ s, 0 ≤ s → s ≤ p.length → ∃ q, p.func s = some q) {f g : V3 → ℝ} {x y k : ℝ}
    (hf : IntervalIntegrable (alongPath p f) MeasureTheory.volume 0 p.length)
    (hg : IntervalIntegrable (alongPath p g) MeasureTheory.volume 0 p.length)
    (hx : p.average f = some x) (hy : p.average g = some y) :
    p.average (fun q => k * f q + g q) = some (k * x + y) := by
  rw [average_eq hl.ne' hd] at hx hy ⊢
  rw [← Option.some.inj hx, ← Option.some.inj hy]
  congr 1
  have : ∫ s in (0:ℝ)..p.length, alongPath p (fun q => k * f q + g q) s =
      ∫ s in (0:ℝ)..p.length, (k * alongPath p f s + alongPath p g s) := by
    refine intervalIntegral.integral_congr ?_
    intro s hs
    rw [Set.uIcc_of_le hl.le] at hs
    obtain ⟨q, hq⟩ := hd s hs.1 hs.2
    simp [alongPath, hq]
  rw [this, intervalIntegral.integral_add (hf.const_mul k) hg, intervalIntegral.integral_const_mul]
  ring

/-- **C74, averages.** The average over two joined paths is the average of the two averages, weighted
with the lengths. -/
theorem C74_average_join {p q r : Path} (hp : 0 < p.length) (hq : 0 < q.length)
    (hdp : ∀ s, 0 ≤ s → s ≤ p.length → ∃ a, p.func s = some a)
    (hdq : ∀ s, 0 ≤ s → s ≤ q.length → ∃ a, q.func s = some a) (hj : p.join q = some r) {f : V3 → ℝ}
    (hf : IntervalIntegrable (alongPath p f) MeasureTheory.volume 0 p.length)
    (hg : IntervalIntegrable (alongPath q f) MeasureTheory.volume 0 q.length) {x y : ℝ}
    (hx : p.average f = some x) (hy : q.average f = some y) :
    r.average f = some ((p.length * x + q.length * y) / (p.length + q.length)) := by
  obtain ⟨a, ha⟩ := hdp p.length hp.le le_rfl
  obtain ⟨b, hb⟩ := hdq 0 le_rfl hq.le
  unfold Path.join at hj
  have ha' : p.endpoint = some a := ha
  have hb' : q.start = some b := hb
  rw [ha', hb'] at hj
  simp only [Option.bind_eq_bind, Option.bind_some] at hj
  split at hj
  · cases hj
  cases hj
  rw [average_eq hp.ne' hdp] at hx
  rw [average_eq hq.ne' hdq] at hy
  have hfun1 : ∀ s, 0 ≤ s → s ≤ p.length → (if 0 ≤ s ∧ s ≤ p.length + q.length then
      if s ≤ p.length then p.func s else q.func (s - p.length) else none) = p.func s := by
    intro s h1 h2
    rw [if_pos ⟨h1, by linarith⟩, if_pos h2]
  have hfun2 : ∀ s, p.length < s → s ≤ p.length + q.length → (if 0 ≤ s ∧ s ≤ p.length + q.length then
      if s ≤ p.length then p.func s else q.func (s - p.length) else none) = q.func (s - p.length) := by
    intro s h1 h2
    rw [if_pos ⟨by linarith, h2⟩, if_neg (by linarith)]
  rw [average_eq (by simp only; linarith) (by
    intro s h1 h2
    simp only at h2 ⊢
    rcases le_or_gt s p.length with h3 | h3
    · rw [hfun1 s h1 h3]; exact hdp s h1 h3
    · rw [hfun2 s h3 h2]; exact hdq _ (by linarith) (by linarith))]
  congr 2
  simp only
  set J : Path := { func := _, length := _, breaks := _, name := _ } with hJ
  have e1 : Set.EqOn (alongPath J f) (alongPath p f) (Set.uIcc 0 p.length) := by
    intro s hs
    rw [Set.uIcc_of_le hp.le] at hs
    simp only [alongPath, hJ]
    rw [hfun1 s hs.1 hs.2]
  have e2 : Set.EqOn (alongPath J f) (fun s => alongPath q f (s - p.length))
      (Set.uIoc p.length (p.length + q.length)) := by
    intro s hs
    rw [Set.uIoc_of_le (by linarith)] at hs
    simp only [alongPath, hJ]
    rw [hfun2 s hs.1 hs.2]
  have i1 : IntervalIntegrable (alongPath J f) MeasureTheory.volume 0 p.length :=
    hf.congr (e1.symm.mono Set.uIoc_subset_uIcc)
  have i2' : IntervalIntegrable (fun s => alongPath q f (s - p.length)) MeasureTheory.volume p.length (p.length + q.length) := by
    have := hg.comp_sub_right p.length
    rwa [zero_add, add_comm q.length] at this
  have i2 : IntervalIntegrable (alongPath J f) MeasureTheory.volume p.length (p.length + q.length) :=
    i2'.congr e2.symm
  rw [← intervalIntegral.integral_add_adjacent_intervals i1 i2, intervalIntegral.integral_congr e1]
  have : ∫ s in p.length..(p.length + q.length), alongPath J f s = ∫ s in (0:ℝ)..q.length, alongPath q f s := by
    rw [intervalIntegral.integral_congr_ae (Filter.Eventually.of_forall (fun s hs => e2 hs)),
      intervalIntegral.integral_comp_sub_right (fun s => alongPath q f s) p.length]
    congr 1 <;> ring
  rw [this, ← Option.some.inj hx, ← Option.some.inj hy]
  field_simp

/-- **C74, averages.** The average of an affine function over a straight line is its value in the
middle of the line. -/
theorem C74_average_line {a b : V3} (hab : a ≠ b) (k : V3) (c : ℝ) :
    (Path.line a b).average (fun q => dot k q + c) = some (dot k ((1/2 : ℝ) * (a + b)) + c) := by
  have hl := norm_sub_pos hab
  have hlen : (Path.line a b).length = V3.norm (a - b) := rfl
  rw [average_eq (by rw [hlen]; exact hl.ne') (fun s _ _ => ⟨_, line_func hab s⟩), hlen]
  congr 1
  have : ∀ s, alongPath (Path.line a b) (fun q => dot k q + c) s =
      (dot k a + c) + (dot k (b - a) / V3.norm (a - b)) * s := by
    intro s
    simp only [alongPath, line_func hab, Option.map_some, Option.getD_some]
    unfold dot
    simp
    field_simp
    ring
  simp only [this]
  rw [intervalIntegral.integral_add (Continuous.intervalIntegrable (by fun_prop) _ _) (Continuous.intervalIntegrable (by fun_prop) _ _), intervalIntegral.integral_const_mul,
    integral_id, intervalIntegral.integral_const]
  simp only [sub_zero, smul_eq_mul]
  field_simp
  unfold dot
  simp
  ring

end Traceon
