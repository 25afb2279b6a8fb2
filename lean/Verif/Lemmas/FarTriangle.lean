import Verif.Lemmas.FarField
import Verif.Props.Matrix3D3
import Verif.Props.Coil

/-!
# The 12-point rule for the potential and the field of a distant triangle
-/
namespace Traceon
open V3 Spec

theorem PolyBound.monomials {a b : ℝ → ℝ → ℝ} {A B : ℝ} (ha : PolyBound a 1 A) (hb : PolyBound b 2 B) {m : ℕ} (L : List (ℝ × ℕ × ℕ))
    (hL : ∀ x ∈ L, x.2.1 + 2 * x.2.2 ≤ m) :
    PolyBound (fun u v => (L.map fun x => x.1 * (a u v ^ x.2.1 * b u v ^ x.2.2)).sum) m (L.map fun x => |x.1| * (A ^ x.2.1 * B ^ x.2.2)).sum := by
  induction L with
  | nil => exact ((PolyBound.const 0).mono (Nat.zero_le _) (by simp)).congr fun u v => by simp
  | cons x L ih =>
    have h1 := ih fun y hy => hL y (List.mem_cons_of_mem _ hy)
    have h2 := ((ha.pow x.2.1).mul (hb.pow x.2.2)).smul x.1
    have h3 := hL x List.mem_cons_self
    simp only [List.map_cons, List.sum_cons]
    exact (h2.mono (by omega) le_rfl).add h1

theorem legSum_bound {a b : ℝ → ℝ → ℝ} (ha : PolyBound a 1 (5 / 2)) (hb : PolyBound b 2 (27 / 4)) :
    PolyBound (fun u v => legSum (a u v) (b u v)) 6 14000 := by
  have h := PolyBound.monomials ha hb (m := 6)
    [(1, 0, 0), (1, 1, 0), (3 / 2, 2, 0), (-1 / 2, 0, 1), (5 / 2, 3, 0), (-3 / 2, 1, 1), (35 / 8, 4, 0), (-30 / 8, 2, 1), (3 / 8, 0, 2),
      (63 / 8, 5, 0), (-70 / 8, 3, 1), (15 / 8, 1, 2), (231 / 16, 6, 0), (-315 / 16, 4, 1), (105 / 16, 2, 2), (-5 / 16, 0, 3)]
    (by simp only [List.forall_mem_cons]; simp)
  refine (h.mono le_rfl ?_).congr fun u v => ?_
  · simp only [List.map_cons, List.map_nil, List.sum_cons, List.sum_nil, neg_div, abs_neg]
    norm_num [abs_of_pos]
  · simp only [List.map_cons, List.map_nil, List.sum_cons, List.sum_nil, legSum]
    ring

theorem gegSum5_bound {a b : ℝ → ℝ → ℝ} (ha : PolyBound a 1 (5 / 2)) (hb : PolyBound b 2 (27 / 4)) :
    PolyBound (fun u v => gegSum5 (a u v) (b u v)) 5 22000 := by
  have h := PolyBound.monomials ha hb (m := 5)
    [(1, 0, 0), (3, 1, 0), (15 / 2, 2, 0), (-3 / 2, 0, 1), (35 / 2, 3, 0), (-15 / 2, 1, 1), (315 / 8, 4, 0), (-210 / 8, 2, 1), (15 / 8, 0, 2),
      (693 / 8, 5, 0), (-630 / 8, 3, 1), (105 / 8, 1, 2)]
    (by simp only [List.forall_mem_cons]; simp)
  refine (h.mono le_rfl ?_).congr fun u v => ?_
  · simp only [List.map_cons, List.map_nil, List.sum_cons, List.sum_nil, neg_div, abs_neg]
    norm_num [abs_of_pos]
  · simp only [List.map_cons, List.map_nil, List.sum_cons, List.sum_nil, gegSum5]
    ring

theorem gegSum6_bound {a b : ℝ → ℝ → ℝ} (ha : PolyBound a 1 (5 / 2)) (hb : PolyBound b 2 (27 / 4)) :
    PolyBound (fun u v => gegSum6 (a u v) (b u v)) 6 143000 := by
  have h := PolyBound.monomials ha hb (m := 6)
    [(3003 / 16, 6, 0), (-3465 / 16, 4, 1), (945 / 16, 2, 2), (-35 / 16, 0, 3)]
    (by simp only [List.forall_mem_cons]; simp)
  have h5 := (gegSum5_bound ha hb).mono (show 5 ≤ 6 by omega) le_rfl
  refine ((h5.add h).mono le_rfl ?_).congr fun u v => ?_
  · simp only [List.map_cons, List.map_nil, List.sum_cons, List.sum_nil, neg_div, abs_neg]
    norm_num [abs_of_pos]
  · simp only [List.map_cons, List.map_nil, List.sum_cons, List.sum_nil, gegSum6]
    ring

theorem V3.dot_sq_le (a b : V3) : V3.dot a b ^ 2 ≤ V3.dot a a * V3.dot b b := by
  simp only [dot]
  nlinarith [sq_nonneg (a.x * b.y - a.y * b.x), sq_nonneg (a.x * b.z - a.z * b.x), sq_nonneg (a.y * b.z - a.z * b.y)]

theorem V3.abs_dot_le (a b : V3) : |V3.dot a b| ≤ V3.norm a * V3.norm b := by
  unfold V3.norm
  rw [← Real.sqrt_sq_eq_abs, ← Real.sqrt_mul (dot_self_nonneg a)]
  exact Real.sqrt_le_sqrt (V3.dot_sq_le a b)

theorem V3.dot_self_le {a : V3} {d : ℝ} (h : V3.norm a ≤ d) : V3.dot a a ≤ d ^ 2 := by
  rw [← V3.norm_sq]
  have := Real.sqrt_nonneg (V3.dot a a)
  unfold V3.norm at *
  nlinarith

theorem V3.norm_le_of {a : V3} {d : ℝ} (hd : 0 ≤ d) (h : V3.dot a a ≤ d ^ 2) : V3.norm a ≤ d := by
  unfold V3.norm; rw [Real.sqrt_le_left hd]; exact h

section
variable {v0 v1 v2 c p : V3} {ρ : ℝ}

/-- What is assumed of a triangle, a point and a center: the vertices are much closer to the center than the point is. -/
structure Distant (v0 v1 v2 c p : V3) (ρ : ℝ) : Prop where
  pos : 0 < V3.norm (p - c)
  half : ρ ≤ 1 / 2
  nonneg : 0 ≤ ρ
  h0 : V3.norm (v0 - c) ≤ ρ * V3.norm (p - c)
  h1 : V3.norm (v1 - c) ≤ ρ * V3.norm (p - c)
  h2 : V3.norm (v2 - c) ≤ ρ * V3.norm (p - c)

/-- `R·y/r²` -/
noncomputable def relA (v0 v1 v2 c p : V3) (u v : ℝ) : ℝ := V3.dot (p - c) (triPoint v0 v1 v2 u v - c) / V3.norm (p - c) ^ 2
/-- `|y|²/r²` -/
noncomputable def relB (v0 v1 v2 c p : V3) (u v : ℝ) : ℝ :=
  V3.dot (triPoint v0 v1 v2 u v - c) (triPoint v0 v1 v2 u v - c) / V3.norm (p - c) ^ 2

theorem diff_sq {a b : V3} {d : ℝ} (ha : V3.dot a a ≤ d ^ 2) (hb : V3.dot b b ≤ d ^ 2) : V3.dot (a - b) (a - b) ≤ (2 * d) ^ 2 := by
  simp only [dot, sub_x, sub_y, sub_z] at *
  nlinarith [sq_nonneg (a.x + b.x), sq_nonneg (a.y + b.y), sq_nonneg (a.z + b.z)]

/-- A linear form in the position relative to the center. -/
theorem Distant.linear (h : Distant v0 v1 v2 c p ρ) (n : V3) (hn : V3.norm n ≤ 1) :
    PolyBound (fun u v => V3.dot n (triPoint v0 v1 v2 u v - c) / V3.norm (p - c)) 1 (5 * ρ) := by
  set r := V3.norm (p - c) with hr
  have hr0 : 0 < r := h.pos
  have q0 := V3.dot_self_le h.h0
  have q1 := V3.dot_self_le h.h1
  have q2 := V3.dot_self_le h.h2
  have hd : 0 ≤ ρ * r := mul_nonneg h.nonneg h.pos.le
  have n1 := V3.norm_le_of (by linarith) (diff_sq q1 q0)
  have n2 := V3.norm_le_of (by linarith) (diff_sq q2 q0)
  have key : ∀ (w : V3) (d : ℝ), V3.norm w ≤ d * r → |V3.dot n w / r| ≤ d := by
    intro w d hw
    rw [abs_div, abs_of_pos hr0, div_le_iff₀ hr0]
    refine (V3.abs_dot_le n w).trans ?_
    have : 0 ≤ V3.norm w := Real.sqrt_nonneg _
    nlinarith
  have k0 := key _ _ h.h0
  have k1 := key (v1 - c - (v0 - c)) (2 * ρ) (by linarith)
  have k2 := key (v2 - c - (v0 - c)) (2 * ρ) (by linarith)
  refine ((PolyBound.linear (V3.dot n (v0 - c) / r) (V3.dot n (v1 - c - (v0 - c)) / r) (V3.dot n (v2 - c - (v0 - c)) / r)).mono le_rfl
    (by linarith)).congr fun u v => ?_
  simp only [triPoint, dot, sub_x, sub_y, sub_z, add_x, add_y, add_z, smul_x, smul_y, smul_z]
  field_simp
  ring

theorem Distant.relA (h : Distant v0 v1 v2 c p ρ) : PolyBound (relA v0 v1 v2 c p) 1 (5 / 2) := by
  have hr0 := h.pos
  have := h.linear ((1 / V3.norm (p - c)) * (p - c)) (by
    refine V3.norm_le_of zero_le_one (le_of_eq ?_)
    have e := V3.norm_sq (p - c)
    have e2 : V3.dot ((1 / V3.norm (p - c)) * (p - c)) ((1 / V3.norm (p - c)) * (p - c)) = V3.dot (p - c) (p - c) / V3.norm (p - c) ^ 2 := by
      simp only [dot, smul_x, smul_y, smul_z]; ring
    rw [e2, ← e, one_pow, sq, div_self (by positivity)])
  refine (this.mono le_rfl (by linarith [h.half])).congr fun u v => ?_
  unfold Traceon.relA
  simp only [dot, smul_x, smul_y, smul_z]
  field_simp

theorem Distant.relB (h : Distant v0 v1 v2 c p ρ) : PolyBound (relB v0 v1 v2 c p) 2 (27 / 4) := by
  set r := V3.norm (p - c) with hr
  have hr0 : 0 < r := h.pos
  have q0 := V3.dot_self_le h.h0
  have q1 := V3.dot_self_le h.h1
  have q2 := V3.dot_self_le h.h2
  have d1 := diff_sq q1 q0
  have d2 := diff_sq q2 q0
  have hh : ρ ^ 2 ≤ 1 / 4 := by nlinarith [h.half, h.nonneg]
  have P : ∀ α β γ : ℝ, PolyBound (fun u v => (α + β * u + γ * v) ^ 2) 2 (3 * (α ^ 2 + β ^ 2 + γ ^ 2)) := by
    intro α β γ
    refine ((PolyBound.linear α β γ).pow 2).mono (by omega) ?_
    have := sq_abs α; have := sq_abs β; have := sq_abs γ
    nlinarith [sq_nonneg (|α| - |β|), sq_nonneg (|α| - |γ|), sq_nonneg (|β| - |γ|)]
  have hx := P (v0 - c).x (v1 - c - (v0 - c)).x (v2 - c - (v0 - c)).x
  have hy := P (v0 - c).y (v1 - c - (v0 - c)).y (v2 - c - (v0 - c)).y
  have hz := P (v0 - c).z (v1 - c - (v0 - c)).z (v2 - c - (v0 - c)).z
  refine ((((hx.add hy).add hz).smul (1 / r ^ 2)).mono le_rfl ?_).congr fun u v => ?_
  · have e : |1 / r ^ 2| = 1 / r ^ 2 := abs_of_pos (by positivity)
    rw [e, one_div, ← div_eq_inv_mul, div_le_iff₀ (by positivity)]
    simp only [dot] at q0 d1 d2
    nlinarith [mul_le_mul_of_nonneg_right hh (sq_nonneg r)]
  · unfold Traceon.relB
    rw [← hr]
    simp only [triPoint, dot, sub_x, sub_y, sub_z, add_x, add_y, add_z, smul_x, smul_y, smul_z]
    field_simp
    ring

/-- Points of the triangle are as close to the center as the vertices. -/
theorem Distant.inside (h : Distant v0 v1 v2 c p ρ) {u v : ℝ} (hu : 0 ≤ u) (hv : 0 ≤ v) (huv : u + v ≤ 1) :
    V3.dot (triPoint v0 v1 v2 u v - c) (triPoint v0 v1 v2 u v - c) ≤ (ρ * V3.norm (p - c)) ^ 2 := by
  have q0 := V3.dot_self_le h.h0
  have q1 := V3.dot_self_le h.h1
  have q2 := V3.dot_self_le h.h2
  set d := (ρ * V3.norm (p - c)) ^ 2
  have key : ∀ x0 x1 x2 : ℝ, (x0 + u * (x1 - x0) + v * (x2 - x0)) ^ 2 ≤ (1 - u - v) * x0 ^ 2 + u * x1 ^ 2 + v * x2 ^ 2 := by
    intro x0 x1 x2
    nlinarith [mul_nonneg (mul_nonneg hu (by linarith : 0 ≤ 1 - u - v)) (sq_nonneg (x1 - x0)), mul_nonneg (mul_nonneg hv (by linarith : 0 ≤ 1 - u - v)) (sq_nonneg (x2 - x0)),
      mul_nonneg (mul_nonneg hu hv) (sq_nonneg (x1 - x2))]
  have kx := key (v0 - c).x (v1 - c).x (v2 - c).x
  have ky := key (v0 - c).y (v1 - c).y (v2 - c).y
  have kz := key (v0 - c).z (v1 - c).z (v2 - c).z
  simp only [triPoint, dot, sub_x, sub_y, sub_z, add_x, add_y, add_z, smul_x, smul_y, smul_z] at *
  nlinarith [mul_le_mul_of_nonneg_left q0 (by linarith : 0 ≤ 1 - u - v), mul_le_mul_of_nonneg_left q1 hu, mul_le_mul_of_nonneg_left q2 hv]

/-- The polar form of the expansion variables. -/
theorem Distant.polar (h : Distant v0 v1 v2 c p ρ) {u v : ℝ} (hu : 0 ≤ u) (hv : 0 ≤ v) (huv : u + v ≤ 1) :
    ∃ k t, |k| ≤ 1 ∧ 0 ≤ t ∧ t ≤ ρ ∧ Traceon.relA v0 v1 v2 c p u v = k * t ∧ Traceon.relB v0 v1 v2 c p u v = t ^ 2 ∧
      V3.norm (triPoint v0 v1 v2 u v - c) = t * V3.norm (p - c) := by
  set r := V3.norm (p - c) with hr
  have hr0 : 0 < r := h.pos
  set y := triPoint v0 v1 v2 u v - c with hy
  have hin := V3.norm_le_of (mul_nonneg h.nonneg h.pos.le) (h.inside hu hv huv)
  rw [← hy] at hin
  have hy0 : 0 ≤ V3.norm y := Real.sqrt_nonneg _
  refine ⟨V3.dot (p - c) y / (r * V3.norm y), V3.norm y / r, ?_, by positivity, ?_, ?_, ?_, ?_⟩
  · rw [abs_div, abs_of_nonneg (mul_nonneg hr0.le hy0)]
    exact div_le_one_of_le₀ (V3.abs_dot_le _ _) (mul_nonneg hr0.le hy0)
  · rw [div_le_iff₀ hr0]; exact hin
  · unfold Traceon.relA
    rw [← hr, ← hy]
    rcases eq_or_lt_of_le hy0 with e | e
    · have : V3.dot (p - c) y = 0 := by
        have := V3.abs_dot_le (p - c) y
        rw [← e, mul_zero] at this
        exact abs_nonpos_iff.1 this
      rw [this, ← e]; simp
    · field_simp
  · unfold Traceon.relB
    rw [← hr, ← hy, ← V3.norm_sq, div_pow, sq (V3.norm y)]
  · field_simp

theorem dist_rel (h : 0 < V3.norm (p - c)) (u v : ℝ) :
    V3.norm (p - triPoint v0 v1 v2 u v) = V3.norm (p - c) * Real.sqrt (1 - 2 * relA v0 v1 v2 c p u v + relB v0 v1 v2 c p u v) := by
  have e : 1 - 2 * relA v0 v1 v2 c p u v + relB v0 v1 v2 c p u v =
      V3.dot (p - triPoint v0 v1 v2 u v) (p - triPoint v0 v1 v2 u v) / V3.norm (p - c) ^ 2 := by
    have hn := V3.norm_sq (p - c)
    unfold relA relB
    rw [eq_div_iff (by positivity)]
    have : V3.norm (p - c) ^ 2 ≠ 0 := by positivity
    field_simp
    rw [sq, hn]
    simp only [dot, sub_x, sub_y, sub_z]
    ring
  rw [e, Real.sqrt_div (dot_self_nonneg _), Real.sqrt_sq h.le]
  unfold V3.norm
  have : 0 < Real.sqrt (V3.dot (p - c) (p - c)) := h
  field_simp

theorem triErr_congr {f g : ℝ → ℝ → ℝ} (h : ∀ u v, 0 ≤ u → 0 ≤ v → u + v ≤ 1 → f u v = g u v) : triErr f = triErr g := by
  unfold triErr; rw [triInt_congr h, triSum_congr h]

/-- The square of the relative distance, cut off where it is not needed. -/
noncomputable def relD (v0 v1 v2 c p : V3) (ρ : ℝ) (u v : ℝ) : ℝ :=
  Real.sqrt (max (1 - 2 * relA v0 v1 v2 c p u v + relB v0 v1 v2 c p u v) ((1 - ρ) ^ 2))

theorem Distant.relD_cont (h : Distant v0 v1 v2 c p ρ) : Continuous (Function.uncurry (relD v0 v1 v2 c p ρ)) := by
  have ha := h.relA.continuous
  have hb := h.relB.continuous
  refine Real.continuous_sqrt.comp (Continuous.max ?_ continuous_const)
  exact (continuous_const.sub (continuous_const.mul ha)).add hb

theorem Distant.relD_pos (h : Distant v0 v1 v2 c p ρ) (u v : ℝ) : 0 < relD v0 v1 v2 c p ρ u v := by
  refine Real.sqrt_pos.2 (lt_of_lt_of_le ?_ (le_max_right _ _))
  have := h.half
  have : 0 < 1 - ρ := by linarith
  positivity

theorem Distant.relD_eq (h : Distant v0 v1 v2 c p ρ) {u v : ℝ} (hu : 0 ≤ u) (hv : 0 ≤ v) (huv : u + v ≤ 1) :
    relD v0 v1 v2 c p ρ u v = Real.sqrt (1 - 2 * Traceon.relA v0 v1 v2 c p u v + Traceon.relB v0 v1 v2 c p u v) := by
  obtain ⟨k, t, hk, t0, tρ, ea, eb, _⟩ := h.polar hu hv huv
  unfold relD
  rw [max_eq_left]
  rw [ea, eb]
  have := dist_low hk t0
  have hh := h.half
  nlinarith [h.nonneg]

/-- The error of the rule for the potential of a distant triangle. -/
theorem Distant.potential_err (h : Distant v0 v1 v2 c p ρ) :
    |triErr fun u v => 1 / V3.norm (p - triPoint v0 v1 v2 u v)| ≤
      1 / V3.norm (p - c) * (1.000000000000001 * (ρ ^ 7 * (1 + ρ) / (1 - ρ) ^ 2) + 2e-11) := by
  have hr := h.pos
  have hh := h.half
  have e : triErr (fun u v => 1 / V3.norm (p - triPoint v0 v1 v2 u v)) =
      1 / V3.norm (p - c) * triErr (fun u v => 1 / relD v0 v1 v2 c p ρ u v) := by
    rw [← triErr_smul]
    refine triErr_congr fun u v hu hv huv => ?_
    rw [dist_rel hr, h.relD_eq hu hv huv, one_div_mul_one_div]
  rw [e, abs_mul, abs_of_pos (by positivity)]
  refine mul_le_mul_of_nonneg_left ?_ (by positivity)
  have key := triErr_near (f := fun u v => 1 / relD v0 v1 v2 c p ρ u v) (δ := ρ ^ 7 * (1 + ρ) / (1 - ρ) ^ 2)
    (by exact continuous_const.div h.relD_cont fun z => (h.relD_pos z.1 z.2).ne') (legSum_bound h.relA h.relB) (by
      intro u v hu hv huv
      obtain ⟨k, t, hk, t0, tρ, ea, eb, _⟩ := h.polar hu hv huv
      rw [h.relD_eq hu hv huv, ea, eb]
      refine (legendre_bound hk t0 (by linarith)).trans ?_
      have : 0 < 1 - ρ := by linarith
      have hρ0 := h.nonneg
      gcongr)
  refine key.trans ?_
  norm_num
  linarith

/-- The error of the rule for the field of a distant triangle, along a unit vector. -/
theorem Distant.field_err (h : Distant v0 v1 v2 c p ρ) {n : V3} (hn : V3.norm n ≤ 1) :
    |triErr fun u v => V3.dot n (p - triPoint v0 v1 v2 u v) / V3.norm (p - triPoint v0 v1 v2 u v) ^ 3| ≤
      1 / V3.norm (p - c) ^ 2 * (64.0000000000001 * (ρ ^ 7 * (1 + ρ) ^ 2 / (1 - ρ) ^ 3) + 2e-10) := by
  have hr := h.pos
  have hh := h.half
  set r := V3.norm (p - c) with hrd
  set l : ℝ → ℝ → ℝ := fun u v => V3.dot n (triPoint v0 v1 v2 u v - c) / r with hl
  set m : ℝ := V3.dot n (p - c) / r with hm
  have hm1 : |m| ≤ 1 := by
    rw [hm, abs_div, abs_of_pos hr, div_le_one hr]
    have := V3.abs_dot_le n (p - c)
    rw [← hrd] at this
    nlinarith
  have hlin := (h.linear n hn).mono le_rfl (show 5 * ρ ≤ 5 / 2 by linarith)
  have e : triErr (fun u v => V3.dot n (p - triPoint v0 v1 v2 u v) / V3.norm (p - triPoint v0 v1 v2 u v) ^ 3) =
      1 / r ^ 2 * triErr (fun u v => (m - l u v) * (1 / relD v0 v1 v2 c p ρ u v ^ 3)) := by
    rw [← triErr_smul]
    refine triErr_congr fun u v hu hv huv => ?_
    have hp := h.relD_pos u v
    rw [dist_rel hr, ← h.relD_eq hu hv huv, ← hrd]
    have : V3.dot n (p - triPoint v0 v1 v2 u v) = r * (m - l u v) := by
      rw [hm, hl]
      simp only
      field_simp
      simp only [dot, sub_x, sub_y, sub_z]; ring
    rw [this]
    field_simp
  rw [e, abs_mul, abs_of_pos (by positivity)]
  refine mul_le_mul_of_nonneg_left ?_ (by positivity)
  have hP : PolyBound (fun u v => m * gegSum6 (Traceon.relA v0 v1 v2 c p u v) (Traceon.relB v0 v1 v2 c p u v) +
      (-1) * (l u v * gegSum5 (Traceon.relA v0 v1 v2 c p u v) (Traceon.relB v0 v1 v2 c p u v))) 6 198000 := by
    have h6 := (gegSum6_bound h.relA h.relB).smul m
    have h5 := ((hlin.mul (gegSum5_bound h.relA h.relB)).smul (-1)).mono (show 1 + 5 ≤ 6 by omega) le_rfl
    refine (h6.add h5).mono le_rfl ?_
    rw [abs_neg, abs_one]
    nlinarith
  have key := triErr_near (f := fun u v => (m - l u v) * (1 / relD v0 v1 v2 c p ρ u v ^ 3)) (δ := 64 * (ρ ^ 7 * (1 + ρ) ^ 2 / (1 - ρ) ^ 3))
    (by
      refine Continuous.mul (continuous_const.sub hlin.continuous) ?_
      exact continuous_const.div (h.relD_cont.pow 3) fun z => (pow_pos (h.relD_pos z.1 z.2) 3).ne') hP (by
      intro u v hu hv huv
      obtain ⟨k, t, hk, t0, tρ, ea, eb, ey⟩ := h.polar hu hv huv
      rw [h.relD_eq hu hv huv, ea, eb]
      have ht1 : t < 1 := by linarith
      have g6 := gegenbauer6_bound hk t0 ht1
      have g5 := gegenbauer5_bound hk t0 ht1
      have hlt : |l u v| ≤ t := by
        rw [hl]
        simp only
        rw [abs_div, abs_of_pos hr, div_le_iff₀ hr]
        have h1 := V3.abs_dot_le n (triPoint v0 v1 v2 u v - c)
        rw [ey] at h1
        have : 0 ≤ t * r := by positivity
        nlinarith
      set G := 1 / Real.sqrt (1 - 2 * (k * t) + t ^ 2) ^ 3
      have e1 : (m - l u v) * G - (m * gegSum6 (k * t) (t ^ 2) + -1 * (l u v * gegSum5 (k * t) (t ^ 2))) =
          m * (G - gegSum6 (k * t) (t ^ 2)) - l u v * (G - gegSum5 (k * t) (t ^ 2)) := by ring
      have hρ : 0 < 1 - ρ := by linarith
      have hρ0 := h.nonneg
      have ht : 0 < 1 - t := by linarith
      calc _ ≤ |m| * |G - gegSum6 (k * t) (t ^ 2)| + |l u v| * |G - gegSum5 (k * t) (t ^ 2)| := by
            rw [e1, ← abs_mul, ← abs_mul]; exact abs_sub _ _
        _ ≤ 1 * (36 * t ^ 7 * (1 + t) ^ 2 / (1 - t) ^ 3) + t * (28 * t ^ 6 * (1 + t) ^ 2 / (1 - t) ^ 3) := by gcongr
        _ = 64 * (t ^ 7 * (1 + t) ^ 2 / (1 - t) ^ 3) := by ring
        _ ≤ _ := by gcongr)
  refine key.trans ?_
  have : 0 ≤ ρ ^ 7 * (1 + ρ) ^ 2 / (1 - ρ) ^ 3 := by
    have := h.nonneg
    have : 0 < 1 - ρ := by linarith
    positivity
  norm_num at this ⊢
  linarith

end
end Traceon
