import Verif.Lemmas.LegendreAll
import Verif.Lemmas.FarTriangle
import Verif.Props.Quadrature
import Verif.Props.EllipticAccuracy
import Mathlib.Algebra.Order.Field.GeomSum

/-!
# The 16-point rule for the potential of rings along a straight segment
-/
namespace Traceon
open Real Spec V3 MeasureTheory

/-- The remainder of the expansion. -/
noncomputable def legRest (ρ : ℝ) : ℝ := ρ ^ 31 * (1 + ρ) / (1 - ρ) ^ 2

theorem legRest_mono {t ρ : ℝ} (h0 : 0 ≤ t) (h : t ≤ ρ) (h1 : ρ < 1) : legRest t ≤ legRest ρ := by
  have : 0 < 1 - ρ := by linarith
  have : 0 ≤ ρ := h0.trans h
  unfold legRest
  gcongr

theorem legRest_nonneg {ρ : ℝ} (h0 : 0 ≤ ρ) : 0 ≤ legRest ρ := by unfold legRest; positivity

/-- Around a point at distance `R`. -/
theorem expand_point {V d : V3} {ρ : ℝ} (hV : 0 < V3.norm V) (hd : 0 < V3.norm d) (hρ : ρ < 1) (hs : V3.norm d ≤ ρ * V3.norm V) {α : ℝ} (hα : |α| ≤ 1) :
    |1 / V3.norm (V - α * d) - 1 / V3.norm V * legPartial 31 (dot V d / (V3.norm V * V3.norm d)) (α * (V3.norm d / V3.norm V))| ≤ 1 / V3.norm V * legRest ρ := by
  set R := V3.norm V
  set h := V3.norm d
  set a := dot V d / (R * h) with ha
  set t := α * (h / R) with ht
  have hρ0 : 0 ≤ ρ := by
    by_contra hc
    push Not at hc
    nlinarith [mul_pos (neg_pos.2 hc) hV]
  have ha1 : |a| ≤ 1 := by
    rw [ha, abs_div, abs_of_pos (mul_pos hV hd), div_le_one (mul_pos hV hd)]
    exact V3.abs_dot_le V d
  have ht1 : |t| ≤ ρ := by
    rw [ht, abs_mul, abs_of_pos (div_pos hd hV)]
    calc |α| * (h / R) ≤ 1 * (h / R) := by gcongr
      _ ≤ ρ := by rw [one_mul, div_le_iff₀ hV]; exact hs
  have e : V3.norm (V - α * d) = R * √(1 - 2 * (a * t) + t ^ 2) := by
    have h1 : R * R = dot V V := V3.norm_sq V
    have h2 : h * h = dot d d := V3.norm_sq d
    have h3 : dot (V - α * d) (V - α * d) = R ^ 2 * (1 - 2 * (a * t) + t ^ 2) := by
      have h4 : dot (V - α * d) (V - α * d) = dot V V - 2 * α * dot V d + α ^ 2 * dot d d := by unfold dot; simp; ring
      rw [h4, ← h1, ← h2, ha, ht]
      field_simp
    have : V3.norm (V - α * d) = √(dot (V - α * d) (V - α * d)) := rfl
    rw [this, h3, Real.sqrt_mul (sq_nonneg R), Real.sqrt_sq hV.le]
  have hb := legendre_bound_abs 30 ha1 (t := t) (lt_of_le_of_lt ht1 hρ)
  rw [e, show 1 / (R * √(1 - 2 * (a * t) + t ^ 2)) = 1 / R * (1 / √(1 - 2 * (a * t) + t ^ 2)) by rw [one_div_mul_one_div], ← mul_sub, abs_mul,
    abs_of_pos (by positivity : 0 < 1 / R)]
  refine mul_le_mul_of_nonneg_left (hb.trans ?_) (by positivity)
  exact legRest_mono (abs_nonneg t) ht1 hρ

theorem near_le (r z : ℝ) (hr : 0 ≤ r) (p : V3) (φ : ℝ) : ringNear r z p ≤ V3.norm (p - ringPoint r z φ) := by
  unfold ringNear V3.norm
  refine Real.sqrt_le_sqrt ?_
  have hu : axisDist p ^ 2 = p.x ^ 2 + p.y ^ 2 := by unfold axisDist; exact Real.sq_sqrt (by positivity)
  have hu0 : 0 ≤ axisDist p := by unfold axisDist; positivity
  have hcs : p.x * cos φ + p.y * sin φ ≤ axisDist p := by
    refine abs_le_of_sq_le_sq' ?_ hu0 |>.2
    rw [hu]
    nlinarith [sq_nonneg (p.x * sin φ - p.y * cos φ), sin_sq_add_cos_sq φ]
  have e : dot (p - ringPoint r z φ) (p - ringPoint r z φ) = p.x ^ 2 + p.y ^ 2 - 2 * r * (p.x * cos φ + p.y * sin φ) + r ^ 2 + (p.z - z) ^ 2 := by
    unfold dot ringPoint
    simp only [V3.sub_x, V3.sub_y, V3.sub_z]
    linear_combination r ^ 2 * sin_sq_add_cos_sq φ
  rw [e, ← hu]
  nlinarith [mul_le_mul_of_nonneg_left hcs hr]

/-- The direction of the segment, rotated. -/
noncomputable def turned (dx dz φ : ℝ) : V3 := ringPoint dx dz φ

theorem turned_norm (dx dz φ : ℝ) : V3.norm (turned dx dz φ) = √(dx ^ 2 + dz ^ 2) := by
  unfold V3.norm turned ringPoint dot
  congr 1
  linear_combination dx ^ 2 * sin_sq_add_cos_sq φ

section
variable {P : V3} {cx cz dx dz ρ : ℝ}

/-- The hypotheses. -/
structure Aimed (P : V3) (cx cz dx dz ρ : ℝ) : Prop where
  len : 0 < √(dx ^ 2 + dz ^ 2)
  inside : |dx| ≤ cx
  small : ρ < 1
  far : √(dx ^ 2 + dz ^ 2) ≤ ρ * ringNear cx cz P
  off : 0 < ringNear cx cz P

theorem Aimed.cx_nonneg (A : Aimed P cx cz dx dz ρ) : 0 ≤ cx := (abs_nonneg dx).trans A.inside

theorem Aimed.rho_pos (A : Aimed P cx cz dx dz ρ) : 0 < ρ := by
  have h := lt_of_lt_of_le A.len A.far
  exact (pos_iff_pos_of_mul_pos h).2 A.off

theorem Aimed.R_pos (A : Aimed P cx cz dx dz ρ) (φ : ℝ) : 0 < V3.norm (P - ringPoint cx cz φ) := lt_of_lt_of_le A.off (near_le _ _ A.cx_nonneg P φ)

theorem Aimed.far' (A : Aimed P cx cz dx dz ρ) (φ : ℝ) : V3.norm (turned dx dz φ) ≤ ρ * V3.norm (P - ringPoint cx cz φ) := by
  rw [turned_norm]
  exact A.far.trans (mul_le_mul_of_nonneg_left (near_le _ _ A.cx_nonneg P φ) A.rho_pos.le)

theorem ring_split (α φ : ℝ) : P - ringPoint (cx + α * dx) (cz + α * dz) φ = (P - ringPoint cx cz φ) - α * turned dx dz φ := by
  unfold turned ringPoint; ext <;> simp <;> ring

theorem Aimed.point_pos (A : Aimed P cx cz dx dz ρ) {α : ℝ} (hα : |α| ≤ 1) (φ : ℝ) : 0 < V3.norm (P - ringPoint (cx + α * dx) (cz + α * dz) φ) := by
  have h1 := A.R_pos φ
  have h2 := A.far' φ
  have hs := A.small
  by_contra hc
  have h0 : V3.norm (P - ringPoint (cx + α * dx) (cz + α * dz) φ) = 0 := le_antisymm (not_lt.1 hc) (Real.sqrt_nonneg _)
  rw [ring_split] at h0
  have h3 : (P - ringPoint cx cz φ) - α * turned dx dz φ = 0 := by
    by_contra hne
    exact (V3.norm_pos hne).ne' h0
  have h4 : P - ringPoint cx cz φ = α * turned dx dz φ := by
    have hx := congrArg V3.x h3
    have hy := congrArg V3.y h3
    have hz := congrArg V3.z h3
    simp only [V3.sub_x, V3.sub_y, V3.sub_z] at hx hy hz
    ext
    · exact sub_eq_zero.1 hx
    · exact sub_eq_zero.1 hy
    · exact sub_eq_zero.1 hz
  have h5 : V3.norm (P - ringPoint cx cz φ) = |α| * V3.norm (turned dx dz φ) := by
    rw [h4]
    have : dot (α * turned dx dz φ) (α * turned dx dz φ) = α ^ 2 * dot (turned dx dz φ) (turned dx dz φ) := by unfold dot; simp; ring
    unfold V3.norm
    rw [this, Real.sqrt_mul (sq_nonneg α), Real.sqrt_sq_eq_abs]
  have h6 : 0 ≤ V3.norm (turned dx dz φ) := Real.sqrt_nonneg _
  nlinarith [mul_le_mul_of_nonneg_right hα h6]

/-- The coefficients of the polynomial. -/
noncomputable def ringCoeff (P : V3) (cx cz dx dz : ℝ) (n : ℕ) : ℝ := ∫ φ in (0 : ℝ)..2 * π, 1 / (4 * π * V3.norm (P - ringPoint cx cz φ)) *
  (leg n (dot (P - ringPoint cx cz φ) (turned dx dz φ) / (V3.norm (P - ringPoint cx cz φ) * V3.norm (turned dx dz φ))) *
    (V3.norm (turned dx dz φ) / V3.norm (P - ringPoint cx cz φ)) ^ n)

theorem continuous_norm_ring (P : V3) (r z : ℝ) : Continuous fun φ => V3.norm (P - ringPoint r z φ) := by
  unfold V3.norm dot ringPoint
  simp only [V3.sub_x, V3.sub_y, V3.sub_z]
  fun_prop

theorem Aimed.coeff_cont (A : Aimed P cx cz dx dz ρ) (n : ℕ) : Continuous fun φ => 1 / (4 * π * V3.norm (P - ringPoint cx cz φ)) *
  (leg n (dot (P - ringPoint cx cz φ) (turned dx dz φ) / (V3.norm (P - ringPoint cx cz φ) * V3.norm (turned dx dz φ))) *
    (V3.norm (turned dx dz φ) / V3.norm (P - ringPoint cx cz φ)) ^ n) := by
  have hR := continuous_norm_ring P cx cz
  have hR0 := fun φ => (A.R_pos φ).ne'
  have hpi := Real.pi_pos.ne'
  have hdot : Continuous fun φ => dot (P - ringPoint cx cz φ) (turned dx dz φ) := by
    unfold dot turned ringPoint
    simp only [V3.sub_x, V3.sub_y, V3.sub_z]
    fun_prop
  simp only [turned_norm]
  have hl := leg_continuous n
  have hlen := A.len.ne'
  refine Continuous.mul (Continuous.div (by fun_prop) (by fun_prop) fun φ => mul_ne_zero (by positivity) (hR0 φ)) (Continuous.mul (hl.comp (Continuous.div hdot (by fun_prop) fun φ => mul_ne_zero (hR0 φ) hlen)) ?_)
  exact (Continuous.div (by fun_prop) hR hR0).pow n

theorem Aimed.coeff_le (A : Aimed P cx cz dx dz ρ) (n : ℕ) : |ringCoeff P cx cz dx dz n| ≤ ρ ^ n / (2 * ringNear cx cz P) := by
  have hD := A.off
  have hρ := A.rho_pos
  have := intervalIntegral.norm_integral_le_of_norm_le_const (a := 0) (b := 2 * π) (f := fun φ => 1 / (4 * π * V3.norm (P - ringPoint cx cz φ)) *
    (leg n (dot (P - ringPoint cx cz φ) (turned dx dz φ) / (V3.norm (P - ringPoint cx cz φ) * V3.norm (turned dx dz φ))) *
      (V3.norm (turned dx dz φ) / V3.norm (P - ringPoint cx cz φ)) ^ n)) (C := 1 / (4 * π * ringNear cx cz P) * (1 * ρ ^ n)) (by
    intro φ _
    have hR := A.R_pos φ
    have hn := near_le cx cz A.cx_nonneg P φ
    have hh : 0 < V3.norm (turned dx dz φ) := by rw [turned_norm]; exact A.len
    have hlt : V3.norm (turned dx dz φ) / V3.norm (P - ringPoint cx cz φ) ≤ ρ := by rw [div_le_iff₀ hR]; exact A.far' φ
    rw [Real.norm_eq_abs, abs_mul, abs_mul, abs_of_pos (by positivity : 0 < 1 / (4 * π * V3.norm (P - ringPoint cx cz φ))), abs_of_nonneg (by positivity : 0 ≤ (V3.norm (turned dx dz φ) / V3.norm (P - ringPoint cx cz φ)) ^ n)]
    have hleg := leg_abs_le (c := dot (P - ringPoint cx cz φ) (turned dx dz φ) / (V3.norm (P - ringPoint cx cz φ) * V3.norm (turned dx dz φ))) (by
      rw [abs_div, abs_of_pos (mul_pos hR hh), div_le_one (mul_pos hR hh)]
      exact V3.abs_dot_le _ _) n
    gcongr)
  rw [Real.norm_eq_abs] at this
  refine this.trans (le_of_eq ?_)
  rw [sub_zero, abs_of_pos (by positivity : 0 < 2 * π)]
  have := Real.pi_pos.ne'
  field_simp
  ring

theorem Aimed.ring_expand (A : Aimed P cx cz dx dz ρ) {α : ℝ} (hα : |α| ≤ 1) :
    |ringPotential (cx + α * dx) (cz + α * dz) P - (cx + α * dx) * ∑ n ∈ Finset.range 31, ringCoeff P cx cz dx dz n * α ^ n| ≤ 2 * cx * (legRest ρ / (2 * ringNear cx cz P)) := by
  have hD := A.off
  have hρ := A.rho_pos
  have hpi := Real.pi_pos.ne'
  have hx0 : |cx + α * dx| ≤ 2 * cx := by
    refine (abs_add_le _ _).trans ?_
    rw [abs_of_nonneg A.cx_nonneg, abs_mul]
    have := mul_le_mul hα A.inside (abs_nonneg dx) zero_le_one
    linarith
  have hc1 : Continuous fun φ => 1 / (4 * π * V3.norm (P - ringPoint (cx + α * dx) (cz + α * dz) φ)) :=
    Continuous.div (by fun_prop) ((continuous_norm_ring P _ _).const_mul _ |>.congr fun φ => rfl) fun φ => mul_ne_zero (by positivity) (A.point_pos hα φ).ne'
  have hsum : ∑ n ∈ Finset.range 31, ringCoeff P cx cz dx dz n * α ^ n = ∫ φ in (0 : ℝ)..2 * π, ∑ n ∈ Finset.range 31, (1 / (4 * π * V3.norm (P - ringPoint cx cz φ)) *
      (leg n (dot (P - ringPoint cx cz φ) (turned dx dz φ) / (V3.norm (P - ringPoint cx cz φ) * V3.norm (turned dx dz φ))) *
        (V3.norm (turned dx dz φ) / V3.norm (P - ringPoint cx cz φ)) ^ n)) * α ^ n := by
    rw [intervalIntegral.integral_finsetSum fun n _ => ((A.coeff_cont n).mul_const _).intervalIntegrable _ _]
    refine Finset.sum_congr rfl fun n _ => ?_
    rw [intervalIntegral.integral_mul_const]; rfl
  have hF : ringPotential (cx + α * dx) (cz + α * dz) P = (cx + α * dx) * ∫ φ in (0 : ℝ)..2 * π, 1 / (4 * π * V3.norm (P - ringPoint (cx + α * dx) (cz + α * dz) φ)) := by
    unfold ringPotential; rw [intervalIntegral.integral_const_mul]
  rw [hF, hsum, ← mul_sub, abs_mul, ← intervalIntegral.integral_sub (hc1.intervalIntegrable _ _)
    ((continuous_finsetSum _ fun n _ => (A.coeff_cont n).mul_const _).intervalIntegrable _ _)]
  refine mul_le_mul hx0 ?_ (abs_nonneg _) (by linarith [A.cx_nonneg])
  have := intervalIntegral.norm_integral_le_of_norm_le_const (a := 0) (b := 2 * π) (f := fun φ => 1 / (4 * π * V3.norm (P - ringPoint (cx + α * dx) (cz + α * dz) φ)) -
    ∑ n ∈ Finset.range 31, (1 / (4 * π * V3.norm (P - ringPoint cx cz φ)) *
      (leg n (dot (P - ringPoint cx cz φ) (turned dx dz φ) / (V3.norm (P - ringPoint cx cz φ) * V3.norm (turned dx dz φ))) *
        (V3.norm (turned dx dz φ) / V3.norm (P - ringPoint cx cz φ)) ^ n)) * α ^ n) (C := 1 / (4 * π) * (1 / ringNear cx cz P * legRest ρ)) (by
    intro φ _
    have hR := A.R_pos φ
    have hn := near_le cx cz A.cx_nonneg P φ
    have hh : 0 < V3.norm (turned dx dz φ) := by rw [turned_norm]; exact A.len
    have hb := expand_point hR hh A.small (A.far' φ) hα
    rw [← ring_split] at hb
    have e : (∑ n ∈ Finset.range 31, (1 / (4 * π * V3.norm (P - ringPoint cx cz φ)) *
      (leg n (dot (P - ringPoint cx cz φ) (turned dx dz φ) / (V3.norm (P - ringPoint cx cz φ) * V3.norm (turned dx dz φ))) *
        (V3.norm (turned dx dz φ) / V3.norm (P - ringPoint cx cz φ)) ^ n)) * α ^ n) = 1 / (4 * π) * (1 / V3.norm (P - ringPoint cx cz φ) *
        legPartial 31 (dot (P - ringPoint cx cz φ) (turned dx dz φ) / (V3.norm (P - ringPoint cx cz φ) * V3.norm (turned dx dz φ))) (α * (V3.norm (turned dx dz φ) / V3.norm (P - ringPoint cx cz φ)))) := by
      unfold legPartial
      rw [Finset.mul_sum, Finset.mul_sum]
      refine Finset.sum_congr rfl fun n _ => ?_
      rw [← one_div_mul_one_div (4 * π), mul_pow α]
      ring
    rw [e, ← one_div_mul_one_div (4 * π), ← mul_sub, Real.norm_eq_abs, abs_mul, abs_of_pos (by positivity : 0 < 1 / (4 * π))]
    refine mul_le_mul_of_nonneg_left (hb.trans ?_) (by positivity)
    have := legRest_nonneg hρ.le
    gcongr)
  rw [Real.norm_eq_abs] at this
  refine this.trans (le_of_eq ?_)
  rw [sub_zero, abs_of_pos (by positivity : 0 < 2 * π)]
  field_simp
  ring

theorem Aimed.cont (A : Aimed P cx cz dx dz ρ) : ContinuousOn (fun α => ringPotential (cx + α * dx) (cz + α * dz) P) (Set.Icc (-1) 1) := by
  set cl : ℝ → ℝ := fun α => max (-1) (min 1 α) with hcl
  have hcc : Continuous cl := by fun_prop
  have hcb : ∀ α, |cl α| ≤ 1 := fun α => abs_le.2 ⟨le_max_left _ _, max_le (by norm_num) (min_le_left _ _)⟩
  have key : Continuous fun α => ringPotential (cx + cl α * dx) (cz + cl α * dz) P := by
    unfold ringPotential
    refine intervalIntegral.continuous_parametric_intervalIntegral_of_continuous' ?_ _ _
    have hn : Continuous fun w : ℝ × ℝ => V3.norm (P - ringPoint (cx + cl w.1 * dx) (cz + cl w.1 * dz) w.2) := by
      unfold V3.norm dot ringPoint
      simp only [V3.sub_x, V3.sub_y, V3.sub_z]
      fun_prop
    have : Continuous fun w : ℝ × ℝ => (cx + cl w.1 * dx) * (1 / (4 * π * V3.norm (P - ringPoint (cx + cl w.1 * dx) (cz + cl w.1 * dz) w.2))) :=
      Continuous.mul (by fun_prop) (Continuous.div (by fun_prop) (by fun_prop) fun w => mul_ne_zero (by positivity) (A.point_pos (hcb w.1) w.2).ne')
    exact this
  refine key.continuousOn.congr fun α hα => ?_
  have : cl α = α := by rw [hcl]; simp only; rw [min_eq_right hα.2, max_eq_right hα.1]
  simp only [this]

/-- The error of the rule along the segment, traversed at unit speed. -/
theorem Aimed.gauss (A : Aimed P cx cz dx dz ρ) :
    |gaussErr fun α => ringPotential (cx + α * dx) (cz + α * dz) P| ≤ cx / ringNear cx cz P * (4 * legRest ρ + 1e-16 / (1 - ρ)) := by
  have hD := A.off
  have hρ := A.rho_pos
  have hρ1 : 0 < 1 - ρ := by linarith [A.small]
  have hcx := A.cx_nonneg
  set S : ℝ → ℝ := fun α => (cx + α * dx) * ∑ n ∈ Finset.range 31, ringCoeff P cx cz dx dz n * α ^ n with hS
  have hSc : Continuous S := by rw [hS]; fun_prop
  have e : (fun α => ringPotential (cx + α * dx) (cz + α * dz) P) = fun α => S α + (ringPotential (cx + α * dx) (cz + α * dz) P - S α) := by funext α; ring
  rw [e, gaussErr_add (g := fun α => ringPotential (cx + α * dx) (cz + α * dz) P - S α) hSc.continuousOn (A.cont.sub hSc.continuousOn)]
  have h2 : |gaussErr fun α => ringPotential (cx + α * dx) (cz + α * dz) P - S α| ≤ 4 * (2 * cx * (legRest ρ / (2 * ringNear cx cz P))) :=
    gaussErr_le fun α h1 h2 => A.ring_expand (abs_le.2 ⟨h1, h2⟩)
  have e2 : S = fun α => ∑ n ∈ Finset.range 31, (cx * ringCoeff P cx cz dx dz n * α ^ n + dx * ringCoeff P cx cz dx dz n * α ^ (n + 1)) := by
    funext α
    rw [hS]
    simp only [Finset.mul_sum]
    refine Finset.sum_congr rfl fun n _ => ?_
    ring
  have hm : ∀ k ≤ 31, |gaussErr fun x => x ^ k| ≤ 1 / 10 ^ 16 := gauss_moment
  have h1 : |gaussErr S| ≤ cx / ringNear cx cz P * (1e-16 / (1 - ρ)) := by
    rw [e2, gaussErr_sum _ _ fun n _ => by fun_prop]
    have hterm : ∀ n ∈ Finset.range 31, |gaussErr fun α => cx * ringCoeff P cx cz dx dz n * α ^ n + dx * ringCoeff P cx cz dx dz n * α ^ (n + 1)| ≤
        cx / ringNear cx cz P * 1e-16 * ρ ^ n := by
      intro n hn
      have hn := Finset.mem_range.1 hn
      rw [gaussErr_add (by fun_prop) (by fun_prop), gaussErr_smul, gaussErr_smul]
      refine (abs_add_le _ _).trans ?_
      rw [abs_mul, abs_mul, abs_mul, abs_mul, abs_of_nonneg hcx]
      have k1 := hm n (by omega)
      have k2 := hm (n + 1) (by omega)
      have k3 := A.coeff_le n
      have k4 := A.inside
      calc _ ≤ cx * (ρ ^ n / (2 * ringNear cx cz P)) * (1 / 10 ^ 16) + cx * (ρ ^ n / (2 * ringNear cx cz P)) * (1 / 10 ^ 16) := by gcongr
        _ = _ := by rw [show (1e-16 : ℝ) = 1 / 10 ^ 16 by norm_num]; field_simp; norm_num
    refine (Finset.abs_sum_le_sum_abs _ _).trans ((Finset.sum_le_sum hterm).trans ?_)
    rw [← Finset.mul_sum, mul_assoc]
    have hg : ∑ n ∈ Finset.range 31, ρ ^ n ≤ 1 / (1 - ρ) := by
      rw [le_div_iff₀ hρ1, geom_sum_mul_neg]
      linarith [pow_pos hρ 31]
    refine mul_le_mul_of_nonneg_left ?_ (by positivity)
    rw [show (1e-16 : ℝ) / (1 - ρ) = 1e-16 * (1 / (1 - ρ)) by ring]
    gcongr
  refine (abs_add_le _ _).trans ((add_le_add h1 h2).trans (le_of_eq ?_))
  field_simp
  ring

end
end Traceon
