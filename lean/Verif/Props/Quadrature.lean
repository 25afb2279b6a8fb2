import Verif.Spec.Quadrature
import Verif.Lemmas.FarTriangle
import Verif.Props.MatrixRadial
import Mathlib.Analysis.Calculus.Taylor

/-!
# C76: the quadrature rules are accurate
-/
namespace Traceon
open Spec V3

/-! ## The 16-point rule -/

/-- the error of the 16-point rule -/
noncomputable def gaussErr (f : ℝ → ℝ) : ℝ := gaussSum f - ∫ t in (-1 : ℝ)..1, f t

theorem gaussErr_add {f g : ℝ → ℝ} (hf : ContinuousOn f (Set.Icc (-1) 1)) (hg : ContinuousOn g (Set.Icc (-1) 1)) :
    gaussErr (fun x => f x + g x) = gaussErr f + gaussErr g := by
  unfold gaussErr
  rw [gaussSum_add, intervalIntegral.integral_add (ContinuousOn.intervalIntegrable_of_Icc (by norm_num) hf)
    (ContinuousOn.intervalIntegrable_of_Icc (by norm_num) hg)]
  ring

theorem gaussErr_smul (a : ℝ) (f : ℝ → ℝ) : gaussErr (fun x => a * f x) = a * gaussErr f := by
  unfold gaussErr; rw [gaussSum_smul, intervalIntegral.integral_const_mul]; ring

theorem gaussErr_sum {ι : Type} (S : Finset ι) (f : ι → ℝ → ℝ) (hf : ∀ i ∈ S, Continuous (f i)) :
    gaussErr (fun x => ∑ i ∈ S, f i x) = ∑ i ∈ S, gaussErr (f i) := by
  unfold gaussErr
  rw [gaussSum_sum, intervalIntegral.integral_finset_sum fun i hi => (hf i hi).intervalIntegrable _ _, Finset.sum_sub_distrib]

theorem gaussErr_le {f : ℝ → ℝ} {ε : ℝ} (h : ∀ x, -1 ≤ x → x ≤ 1 → |f x| ≤ ε) : |gaussErr f| ≤ 4 * ε := by
  have h1 := abs_gaussSum_le h
  have h2 := intervalIntegral.norm_integral_le_of_norm_le_const (a := -1) (b := 1) (f := f) (C := ε) (by
    intro x hx
    rw [Set.uIoc_of_le (by norm_num)] at hx
    exact h x hx.1.le hx.2)
  norm_num at h2
  unfold gaussErr
  refine (abs_sub _ _).trans ?_
  linarith

/-- **C76**: the 16-point rule on an interval is exact for polynomials up to degree 31, up to the rounding of the tables. -/
theorem C76_gauss_polynomial (P : Polynomial ℝ) (h : P.natDegree ≤ 31) :
    |(gaussRule.map fun g => g.1 * P.eval g.2).sum - ∫ x in (-1 : ℝ)..1, P.eval x| ≤ 1e-16 * ∑ k ∈ Finset.range 32, |P.coeff k| := by
  have e : ∀ x, P.eval x = ∑ k ∈ Finset.range 32, P.coeff k * x ^ k := fun x => P.eval_eq_sum_range' (by omega) x
  have key : gaussErr (fun x => P.eval x) = ∑ k ∈ Finset.range 32, P.coeff k * gaussErr (fun x => x ^ k) := by
    simp only [e]
    rw [gaussErr_sum _ _ fun k _ => by fun_prop]
    exact Finset.sum_congr rfl fun k _ => gaussErr_smul _ _
  change |gaussErr (fun x => P.eval x)| ≤ _
  rw [key, Finset.mul_sum]
  refine (Finset.abs_sum_le_sum_abs _ _).trans (Finset.sum_le_sum fun k hk => ?_)
  rw [abs_mul, mul_comm]
  refine mul_le_mul_of_nonneg_right ?_ (abs_nonneg _)
  refine (gauss_moment k (by have := Finset.mem_range.1 hk; omega)).trans ?_
  norm_num

theorem gaussErr_shifted (k : ℕ) (hk : k ≤ 31) : |gaussErr (fun x => (x + 1) ^ k)| ≤ 2 ^ k * (1 / 10 ^ 16) := by
  have e : (fun x : ℝ => (x + 1) ^ k) = fun x => ∑ m ∈ Finset.range (k + 1), (k.choose m : ℝ) * x ^ m := by
    funext x
    rw [add_pow]
    exact Finset.sum_congr rfl fun m _ => by rw [one_pow]; ring
  rw [e, gaussErr_sum _ _ fun m _ => by fun_prop]
  have h2 : (2 : ℝ) ^ k = ∑ m ∈ Finset.range (k + 1), (k.choose m : ℝ) := by
    rw [← Nat.cast_sum, Nat.sum_range_choose]; norm_num
  rw [h2, Finset.sum_mul]
  refine (Finset.abs_sum_le_sum_abs _ _).trans (Finset.sum_le_sum fun m hm => ?_)
  rw [gaussErr_smul, abs_mul, abs_of_nonneg (by positivity)]
  refine mul_le_mul_of_nonneg_left ?_ (by positivity)
  exact gauss_moment m (by have := Finset.mem_range.1 hm; omega)

/-- The rule for smooth functions. -/
theorem gaussErr_smooth {g : ℝ → ℝ} {M N : ℝ} (h : Smooth32 g M N) : |gaussErr g| ≤ 1e-15 * M + 1e-23 * N := by
  set T : ℝ → ℝ := fun x => ∑ k ∈ Finset.range 32, (((k.factorial : ℝ)⁻¹ * iteratedDerivWithin k g (Set.Icc (-1) 1) (-1)) * (x + 1) ^ k) with hT
  have hTc : Continuous T := by rw [hT]; fun_prop
  have eT : ∀ x, taylorWithinEval g 31 (Set.Icc (-1) 1) (-1) x = T x := by
    intro x
    rw [taylor_within_apply, hT]
    refine Finset.sum_congr rfl fun k _ => ?_
    rw [smul_eq_mul, sub_neg_eq_add]; ring
  have hN : 0 ≤ N := (abs_nonneg _).trans (h.high (-1) (by norm_num))
  have hM : 0 ≤ M := (abs_nonneg _).trans (h.low 0 (by omega) (-1) (by norm_num))
  have rem : ∀ x, -1 ≤ x → x ≤ 1 → |g x - T x| ≤ N * (2 ^ 32 / Nat.factorial 31) := by
    intro x h1 h2
    have := taylor_mean_remainder_bound (f := g) (a := -1) (b := 1) (C := N) (x := x) (n := 31) (by norm_num)
      (by norm_num; exact h.smooth) ⟨h1, h2⟩ (fun y hy => h.high y hy)
    rw [eT, Real.norm_eq_abs] at this
    refine this.trans ?_
    rw [mul_div_assoc]
    refine mul_le_mul_of_nonneg_left ?_ hN
    gcongr
    linarith
  have e : gaussErr g = gaussErr T + gaussErr (fun x => g x - T x) := by
    rw [← gaussErr_add (f := T) (g := fun x => g x - T x) hTc.continuousOn (h.smooth.continuousOn.sub hTc.continuousOn)]
    congr 1
    funext x; ring
  have b1 : |gaussErr T| ≤ 8 * (1 / 10 ^ 16) * M := by
    rw [hT, gaussErr_sum _ _ fun k _ => by fun_prop]
    have : ∀ k ∈ Finset.range 32, |gaussErr fun x => ((k.factorial : ℝ)⁻¹ * iteratedDerivWithin k g (Set.Icc (-1) 1) (-1)) * (x + 1) ^ k| ≤
        ((k.factorial : ℝ)⁻¹ * 2 ^ k) * (M * (1 / 10 ^ 16)) := by
      intro k hk
      have hk' : k ≤ 31 := by have := Finset.mem_range.1 hk; omega
      rw [gaussErr_smul, abs_mul, abs_mul, abs_of_pos (by positivity : (0 : ℝ) < (k.factorial : ℝ)⁻¹)]
      have h1 := h.low k hk' (-1) (by norm_num)
      have h2 := gaussErr_shifted k hk'
      calc _ ≤ ((k.factorial : ℝ)⁻¹ * M) * (2 ^ k * (1 / 10 ^ 16)) := by gcongr
        _ = _ := by ring
    refine (Finset.abs_sum_le_sum_abs _ _).trans ((Finset.sum_le_sum this).trans ?_)
    rw [← Finset.sum_mul]
    have s : ∑ k ∈ Finset.range 32, ((k.factorial : ℝ)⁻¹ * 2 ^ k) ≤ 8 := by
      norm_num [Finset.sum_range_succ, Nat.factorial]
    calc _ ≤ 8 * (M * (1 / 10 ^ 16)) := by gcongr
      _ = _ := by ring
  have b2 := gaussErr_le rem
  rw [e]
  refine (abs_add_le _ _).trans ?_
  have f31 : (Nat.factorial 31 : ℝ) = 8222838654177922817725562880000000 := by norm_num [Nat.factorial]
  rw [f31] at b2
  norm_num at b1 b2 ⊢
  linarith

theorem sumAlong_eq {l : Line4} (hl : InHalfPlane l) (f : ℝ × ℝ → ℝ) :
    sumAlong l f = gaussSum fun α => V3.norm (elemTangent l α) * f ((elemPoint l α).x, (elemPoint l α).z) := by
  unfold sumAlong lineJacRow linePosRow gaussSum
  rw [List.zip_map', List.map_map]
  congr 1
  refine List.map_congr_left fun g _ => ?_
  simp only [Function.comp]
  rw [elemTangent_norm hl, elemPoint_linePos, mul_assoc]

/-- **C76**, radial symmetry: along any curved line element, for any function that is smooth along it, the sum over the 16 points differs from the integral with respect to arc length
by at most `1e-15 M + 1e-23 N`, `M` and `N` bounding the derivatives with respect to the parameter (at most the 31st, and the 32nd). -/
theorem C76_line (l : Line4) (hl : InHalfPlane l) (f : ℝ × ℝ → ℝ) (M N : ℝ)
    (h : Smooth32 (fun α => V3.norm (elemTangent l α) * f ((elemPoint l α).x, (elemPoint l α).z)) M N) :
    |sumAlong l f - alongElem l (fun p => f (p.x, p.z))| ≤ 1e-15 * M + 1e-23 * N := by
  rw [sumAlong_eq hl]
  exact gaussErr_smooth h

/-- **C76**, the potential of charged rings: if along every element the potential of a ring at `p` is smooth in this sense, the potential computed by the field object differs by the sum of the errors
from the integral over the elements. -/
theorem C76_potential_radial (p : V3) (l : Nat → Line4) (q M N : Nat → ℝ) (js : List Nat) (hl : ∀ j ∈ js, InHalfPlane (l j))
    (h : ∀ j ∈ js, Smooth32 (fun α => V3.norm (elemTangent (l j) α) *
      potentialRadialRing (norm2d p.x p.y) p.z (elemPoint (l j) α).x (elemPoint (l j) α).z) (M j) (N j)) :
    |potentialRadial p (lineCharges (js.map l) (js.map q)) -
      (js.map fun j => q j * alongElem (l j) fun s => potentialRadialRing (norm2d p.x p.y) p.z s.x s.z).sum| ≤
      (js.map fun j => |q j| * (1e-15 * M j + 1e-23 * N j)).sum := by
  unfold potentialRadial
  rw [EffCharges.loop_eq, superpose_lineCharges]
  induction js with
  | nil => simp
  | cons j js ih =>
    have ih := ih (fun k hk => hl k (List.mem_cons_of_mem _ hk)) fun k hk => h k (List.mem_cons_of_mem _ hk)
    have h1 := C76_line (l j) (hl j List.mem_cons_self) (fun q => potentialRadialRing (norm2d p.x p.y) p.z q.1 q.2) _ _ (h j List.mem_cons_self)
    simp only [List.map_cons, List.sum_cons]
    have h2 := mul_le_mul_of_nonneg_left h1 (abs_nonneg (q j))
    rw [← abs_mul, mul_sub] at h2
    refine le_trans ?_ (add_le_add h2 ih)
    refine le_trans (le_of_eq ?_) (abs_add_le _ _)
    congr 1
    unfold sumAlong
    ring

/-! ## The 12-point rule -/

/-- **C76**: the 12-point rule on a triangle is exact for polynomials up to degree 6, up to the rounding of the tables. -/
theorem C76_triangle_polynomial (c : ℕ → ℕ → ℝ) :
    |(quadRule.map fun q => q.1 * ∑ i ∈ Finset.range 7, ∑ j ∈ Finset.range (7 - i), c i j * (q.2.1 ^ i * q.2.2 ^ j)).sum -
      ∫ v in (0 : ℝ)..1, ∫ u in (0 : ℝ)..(1 - v), ∑ i ∈ Finset.range 7, ∑ j ∈ Finset.range (7 - i), c i j * (u ^ i * v ^ j)| ≤
      1e-15 * ∑ i ∈ Finset.range 7, ∑ j ∈ Finset.range (7 - i), |c i j| := by
  have mono : ∀ i j, i + j ≤ 6 → PolyBound (fun u v => c i j * (u ^ i * v ^ j)) 6 |c i j| := by
    intro i j hij
    have hu := ((PolyBound.linear 0 1 0).mono le_rfl (show |(0 : ℝ)| + |1| + |0| ≤ 1 by norm_num)).pow i
    have hv := ((PolyBound.linear 0 0 1).mono le_rfl (show |(0 : ℝ)| + |0| + |1| ≤ 1 by norm_num)).pow j
    refine (((hu.mul hv).smul (c i j)).mono (by omega) (by simp)).congr fun u v => by simp
  have sum : ∀ (S : Finset ℕ) (f : ℕ → ℝ → ℝ → ℝ) (B : ℕ → ℝ), (∀ i ∈ S, PolyBound (f i) 6 (B i)) → PolyBound (fun u v => ∑ i ∈ S, f i u v) 6 (∑ i ∈ S, B i) := by
    intro S f B hS
    induction S using Finset.induction_on with
    | empty => exact ((PolyBound.const 0).mono (by omega) (by simp)).congr fun u v => by simp
    | insert i S hi ih =>
      have h1 := ih fun k hk => hS k (Finset.mem_insert_of_mem hk)
      have h2 := hS i (Finset.mem_insert_self _ _)
      simp only [Finset.sum_insert hi]
      exact h2.add h1
  have := sum (Finset.range 7) (fun i u v => ∑ j ∈ Finset.range (7 - i), c i j * (u ^ i * v ^ j)) (fun i => ∑ j ∈ Finset.range (7 - i), |c i j|) (by
    intro i hi
    refine sum _ (fun j u v => c i j * (u ^ i * v ^ j)) (fun j => |c i j|) fun j hj => mono i j ?_
    have := Finset.mem_range.1 hi; have := Finset.mem_range.1 hj; omega)
  refine (this.err).trans (le_of_eq ?_)
  norm_num
  ring

theorem sumOver_eq (t : Tri3) (f : V3 → ℝ) : sumOver t f = 2 * area t * triSum fun u v => f (triPoint t.v0 t.v1 t.v2 u v) := by
  unfold sumOver jacRow posRow triSum
  rw [List.zip_map', List.map_map, ← List.sum_map_mul_left]
  congr 1
  refine List.map_congr_left fun q _ => ?_
  simp only [Function.comp]
  have : (⟨t.v0.x + q.2.1 * (t.v1.x - t.v0.x) + q.2.2 * (t.v2.x - t.v0.x), t.v0.y + q.2.1 * (t.v1.y - t.v0.y) + q.2.2 * (t.v2.y - t.v0.y),
      t.v0.z + q.2.1 * (t.v1.z - t.v0.z) + q.2.2 * (t.v2.z - t.v0.z)⟩ : V3) = triPoint t.v0 t.v1 t.v2 q.2.1 q.2.2 := by
    unfold triPoint; ext <;> simp
  rw [this, triArea_eq]
  ring

theorem triIntegral_eq (t : Tri3) (f : V3 → ℝ) : triIntegral t.v0 t.v1 t.v2 f = 2 * area t * triInt fun u v => f (triPoint t.v0 t.v1 t.v2 u v) := by
  have : 2 * area t = V3.norm (cross (t.v1 - t.v0) (t.v2 - t.v0)) := by unfold area; ring
  rw [this, ← triInt_smul]
  rfl

theorem Spec.SmallFrom.distant {p : V3} {t : Tri3} {c : V3} {ρ : ℝ} (h : SmallFrom p t c ρ) : Distant t.v0 t.v1 t.v2 c p ρ := by
  refine ⟨h.pos, h.half, ?_, h.h0, h.h1, h.h2⟩
  have h1 : 0 ≤ V3.norm (t.v0 - c) := Real.sqrt_nonneg _
  exact nonneg_of_mul_nonneg_left (h1.trans h.h0) h.pos

/-- **C76**, three dimensions: the error of the potential of a triangle, as computed with 12 points, decreases as the seventh power of the size of the triangle relative to its distance. -/
theorem C76_far_potential (p : V3) (t : Tri3) (c : V3) (ρ : ℝ) (h : SmallFrom p t c ρ) :
    |sumOver t (potential3dPoint p) - triPotential t.v0 t.v1 t.v2 p / (4 * Real.pi)| ≤
      area t / (4 * Real.pi * V3.norm (p - c)) * (2.01 * ρ ^ 7 * (1 + ρ) / (1 - ρ) ^ 2 + 1e-10) := by
  have hd := h.distant
  have hpi := Real.pi_pos
  have hr := h.pos
  have hA : 0 ≤ area t := div_nonneg (Real.sqrt_nonneg _) zero_le_two
  have e1 : sumOver t (potential3dPoint p) = 2 * area t / (4 * Real.pi) * triSum fun u v => 1 / V3.norm (p - triPoint t.v0 t.v1 t.v2 u v) := by
    rw [sumOver_eq]
    have : (fun u v => potential3dPoint p (triPoint t.v0 t.v1 t.v2 u v)) = fun u v => 1 / (4 * Real.pi) * (1 / V3.norm (p - triPoint t.v0 t.v1 t.v2 u v)) := by
      funext u v; unfold potential3dPoint; rw [norm_sub_comm', one_div_mul_one_div]
    rw [this, triSum_smul]; ring
  have e2 : triPotential t.v0 t.v1 t.v2 p / (4 * Real.pi) = 2 * area t / (4 * Real.pi) * triInt fun u v => 1 / V3.norm (p - triPoint t.v0 t.v1 t.v2 u v) := by
    unfold triPotential; rw [triIntegral_eq]; ring
  rw [e1, e2, ← mul_sub, abs_mul, abs_of_nonneg (by positivity)]
  have := hd.potential_err
  have hρ := hd.nonneg
  have h1 : 0 < 1 - ρ := by linarith [h.half]
  calc _ ≤ 2 * area t / (4 * Real.pi) * (1 / V3.norm (p - c) * (1.000000000000001 * (ρ ^ 7 * (1 + ρ) / (1 - ρ) ^ 2) + 2e-11)) := by
        refine mul_le_mul_of_nonneg_left this (by positivity)
    _ = area t / (4 * Real.pi * V3.norm (p - c)) * (2 * (1.000000000000001 * (ρ ^ 7 * (1 + ρ) / (1 - ρ) ^ 2) + 2e-11)) := by
        field_simp
    _ ≤ _ := by
        refine mul_le_mul_of_nonneg_left ?_ (by positivity)
        have : 0 ≤ ρ ^ 7 * (1 + ρ) / (1 - ρ) ^ 2 := by positivity
        rw [mul_assoc 2.01, mul_div_assoc 2.01]
        norm_num at this ⊢
        linarith

/-- **C76**, three dimensions: the same for the component of the field along any unit vector. -/
theorem C76_far_field (p n : V3) (hn : V3.norm n = 1) (t : Tri3) (c : V3) (ρ : ℝ) (h : SmallFrom p t c ρ) :
    |sumOver t (fun s => fieldDotNormal3d p s n) - triFieldAlong t.v0 t.v1 t.v2 p n / (4 * Real.pi)| ≤
      area t / (4 * Real.pi * V3.norm (p - c) ^ 2) * (128.01 * ρ ^ 7 * (1 + ρ) ^ 2 / (1 - ρ) ^ 3 + 1e-9) := by
  have hd := h.distant
  have hpi := Real.pi_pos
  have hr := h.pos
  have hA : 0 ≤ area t := div_nonneg (Real.sqrt_nonneg _) zero_le_two
  set F : ℝ → ℝ → ℝ := fun u v => V3.dot n (p - triPoint t.v0 t.v1 t.v2 u v) / V3.norm (p - triPoint t.v0 t.v1 t.v2 u v) ^ 3 with hF
  have e1 : sumOver t (fun s => fieldDotNormal3d p s n) = 2 * area t / (4 * Real.pi) * triSum F := by
    rw [sumOver_eq]
    have : (fun u v => fieldDotNormal3d p (triPoint t.v0 t.v1 t.v2 u v) n) = fun u v => 1 / (4 * Real.pi) * F u v := by
      funext u v
      rw [hF]
      unfold fieldDotNormal3d dx1Potential3dPoint dy1Potential3dPoint dz1Potential3dPoint
      beta_reduce
      rw [norm_sub_comm' p (triPoint t.v0 t.v1 t.v2 u v)]
      set s := triPoint t.v0 t.v1 t.v2 u v
      simp only [dot, sub_x, sub_y, sub_z]
      rw [div_mul_div_comm, one_mul]
      ring
    rw [this, triSum_smul]; ring
  have e2 : triFieldAlong t.v0 t.v1 t.v2 p n / (4 * Real.pi) = 2 * area t / (4 * Real.pi) * triInt F := by
    unfold triFieldAlong; rw [triIntegral_eq]; ring
  rw [e1, e2, ← mul_sub, abs_mul, abs_of_nonneg (by positivity)]
  have := hd.field_err hn.le
  have hρ := hd.nonneg
  have h1 : 0 < 1 - ρ := by linarith [h.half]
  calc _ ≤ 2 * area t / (4 * Real.pi) * (1 / V3.norm (p - c) ^ 2 * (64.0000000000001 * (ρ ^ 7 * (1 + ρ) ^ 2 / (1 - ρ) ^ 3) + 2e-10)) := by
        refine mul_le_mul_of_nonneg_left this (by positivity)
    _ = area t / (4 * Real.pi * V3.norm (p - c) ^ 2) * (2 * (64.0000000000001 * (ρ ^ 7 * (1 + ρ) ^ 2 / (1 - ρ) ^ 3) + 2e-10)) := by
        field_simp
    _ ≤ _ := by
        refine mul_le_mul_of_nonneg_left ?_ (by positivity)
        have : 0 ≤ ρ ^ 7 * (1 + ρ) ^ 2 / (1 - ρ) ^ 3 := by positivity
        rw [mul_assoc 128.01, mul_div_assoc 128.01]
        norm_num at this ⊢
        linarith

theorem sum_err {js : List Nat} (q a b e : Nat → ℝ) (h : ∀ j ∈ js, |a j - b j| ≤ e j) :
    |(js.map fun j => q j * a j).sum - (js.map fun j => q j * b j).sum| ≤ (js.map fun j => |q j| * e j).sum := by
  induction js with
  | nil => simp
  | cons j js ih =>
    have ih := ih fun k hk => h k (List.mem_cons_of_mem _ hk)
    have h2 := mul_le_mul_of_nonneg_left (h j List.mem_cons_self) (abs_nonneg (q j))
    rw [← abs_mul, mul_sub] at h2
    simp only [List.map_cons, List.sum_cons]
    refine le_trans ?_ (add_le_add h2 ih)
    refine le_trans (le_of_eq ?_) (abs_add_le _ _)
    congr 1
    ring

/-- **C76**, the potential which the field object reports for any number of charged triangles, compared with the potential of uniform surface charges. -/
theorem C76_potential_3d (p : V3) (t : Nat → Tri3) (q : Nat → ℝ) (js : List Nat) (c : Nat → V3) (ρ : Nat → ℝ) (h : ∀ j ∈ js, SmallFrom p (t j) (c j) (ρ j)) :
    |potential3d p (triCharges (js.map t) (js.map q)) - exactPotential p t q js| ≤
      (js.map fun j => |q j| * (area (t j) / (4 * Real.pi * V3.norm (p - c j)) * (2.01 * ρ j ^ 7 * (1 + ρ j) / (1 - ρ j) ^ 2 + 1e-10))).sum := by
  unfold potential3d exactPotential
  rw [EffCharges.loop_eq, superpose_triCharges]
  exact sum_err q _ _ _ fun j hj => C76_far_potential p (t j) (c j) (ρ j) (h j hj)

/-- **C76**, the field which the field object reports, along any unit vector. -/
theorem C76_field_3d (p n : V3) (hn : V3.norm n = 1) (t : Nat → Tri3) (q : Nat → ℝ) (js : List Nat) (c : Nat → V3) (ρ : Nat → ℝ)
    (h : ∀ j ∈ js, SmallFrom p (t j) (c j) (ρ j)) :
    |V3.dot n (field3d p (triCharges (js.map t) (js.map q))) - exactFieldAlong p n t q js| ≤
      (js.map fun j => |q j| * (area (t j) / (4 * Real.pi * V3.norm (p - c j) ^ 2) * (128.01 * ρ j ^ 7 * (1 + ρ j) ^ 2 / (1 - ρ j) ^ 3 + 1e-9))).sum := by
  unfold exactFieldAlong
  rw [field_along]
  exact sum_err q _ _ _ fun j hj => C76_far_field p n hn (t j) (c j) (ρ j) (h j hj)

/-- **C76**, the test of the program for using 12 points: more than five times the length of the first side away. If the first side is the longest at the first vertex, the error of the potential is
less than `5e-5` of the potential of a point charge at the first vertex. -/
theorem C76_far_test (p : V3) (t : Tri3) (h : FarTriangle p t) (hs : V3.norm (t.v2 - t.v0) ≤ V3.norm (t.v1 - t.v0)) :
    |sumOver t (potential3dPoint p) - triPotential t.v0 t.v1 t.v2 p / (4 * Real.pi)| ≤ 5e-5 * (area t / (4 * Real.pi * V3.norm (p - t.v0))) := by
  unfold FarTriangle distance3d at h
  rw [norm_sub_comm' t.v0 t.v1, norm_sub_comm' t.v0 p] at h
  have h0 : 0 ≤ V3.norm (t.v1 - t.v0) := Real.sqrt_nonneg _
  have z : V3.norm (t.v0 - t.v0) = 0 := by
    have : t.v0 - t.v0 = 0 := V3.sub_eq_zero.2 rfl
    rw [this]; simp [V3.norm, dot]
  have := C76_far_potential p t t.v0 (1 / 5) ⟨by linarith, by norm_num, by rw [z]; linarith, by linarith, by linarith⟩
  refine this.trans ?_
  rw [mul_comm]
  have hA : 0 ≤ area t := div_nonneg (Real.sqrt_nonneg _) zero_le_two
  refine mul_le_mul_of_nonneg_right (by norm_num) ?_
  have hpi := Real.pi_pos
  have : 0 < V3.norm (p - t.v0) := by linarith
  positivity

/-- **The test is not sufficient**: it looks at the first side only. A point above the middle of a long side, at a hundredth of the length of the shortest side, passes the test. -/
theorem C76_far_test_refuted : ∃ (t : Tri3) (p : V3), FarTriangle p t ∧
    (∃ u v, 0 ≤ u ∧ 0 ≤ v ∧ u + v ≤ 1 ∧ V3.norm (p - triPoint t.v0 t.v1 t.v2 u v) ≤ V3.norm (t.v1 - t.v0) / 100) ∧ 0 < area t := by
  refine ⟨⟨⟨0, 0, 0⟩, ⟨1, 0, 0⟩, ⟨0, 100, 0⟩⟩, ⟨0, 50, 1 / 100⟩, ?_, ⟨0, 1 / 2, by norm_num, by norm_num, by norm_num, ?_⟩, ?_⟩
  · unfold FarTriangle distance3d V3.norm dot
    have e1 : Real.sqrt 1 = 1 := Real.sqrt_one
    have e2 : (50 : ℝ) ≤ Real.sqrt (50 * 50 + 1 / 100 * (1 / 100)) := Real.le_sqrt_of_sq_le (by norm_num)
    norm_num at e2 ⊢
    linarith
  · unfold V3.norm dot triPoint
    have e : Real.sqrt (1 / 10000) = 1 / 100 := by
      rw [show (1 / 10000 : ℝ) = (1 / 100) ^ 2 by norm_num, Real.sqrt_sq (by norm_num)]
    norm_num at e ⊢
    rw [e]
  · unfold area V3.norm dot cross
    norm_num

/-- A small triangle, a distant point and a center. -/
example : SmallFrom ⟨0, 0, 10⟩ ⟨⟨0, 0, 0⟩, ⟨1, 0, 0⟩, ⟨0, 1, 0⟩⟩ ⟨0, 0, 0⟩ (1 / 10) := by
  have e : ∀ a : V3, V3.norm a = Real.sqrt (dot a a) := fun _ => rfl
  have s100 : Real.sqrt 100 = 10 := by rw [show (100 : ℝ) = 10 ^ 2 by norm_num, Real.sqrt_sq (by norm_num)]
  constructor <;> (try simp only [e, dot, sub_x, sub_y, sub_z]) <;> norm_num [s100]

/-- A straight element parallel to the axis and a function along it. -/
example : InHalfPlane ⟨⟨1, 0, 0⟩, ⟨1, 0, 3⟩, ⟨1, 0, 1⟩, ⟨1, 0, 2⟩⟩ ∧
    Smooth32 (fun α => V3.norm (elemTangent ⟨⟨1, 0, 0⟩, ⟨1, 0, 3⟩, ⟨1, 0, 1⟩, ⟨1, 0, 2⟩⟩ α) * (fun _ : ℝ × ℝ => (2 : ℝ)) (0, 0)) 3 3 := by
  have hl : InHalfPlane ⟨⟨1, 0, 0⟩, ⟨1, 0, 3⟩, ⟨1, 0, 1⟩, ⟨1, 0, 2⟩⟩ := by
    refine ⟨⟨rfl, rfl, rfl, rfl⟩, ?_⟩
    simp only [elemPoint, add_x, smul_x]; norm_num
  refine ⟨hl, ?_⟩
  have e : (fun α => V3.norm (elemTangent ⟨⟨1, 0, 0⟩, ⟨1, 0, 3⟩, ⟨1, 0, 1⟩, ⟨1, 0, 2⟩⟩ α) * (fun _ : ℝ × ℝ => (2 : ℝ)) (0, 0)) = fun _ => 3 := by
    funext α
    rw [elemTangent_norm hl]
    unfold lineJac curveJac
    have s24 : Real.sqrt (24 ^ 2) = 24 := Real.sqrt_sq (by norm_num)
    norm_num at s24 ⊢
    rw [s24]
    norm_num
  rw [e]
  refine ⟨contDiffOn_const, ?_, ?_⟩
  · intro k _ x _
    rw [iteratedDerivWithin_const]
    split_ifs <;> norm_num
  · intro x _
    rw [iteratedDerivWithin_const]
    norm_num

end Traceon
