import Verif.Props.Paths2
import Mathlib.Analysis.SpecialFunctions.Trigonometric.Bounds

/-!
# Theorems about lines, arcs and circles: C25
-/
namespace Traceon
open Spec V3

/-- Distance between two points. -/
noncomputable def Spec.dist (a b : V3) : ℝ := V3.norm (a - b)

theorem norm_nonneg' (a : V3) : 0 ≤ V3.norm a := Real.sqrt_nonneg _

theorem norm_smul' (k : ℝ) (a : V3) : V3.norm (k * a) = |k| * V3.norm a := by
  have : dot (k * a) (k * a) = k ^ 2 * dot a a := by unfold dot; simp; ring
  unfold V3.norm
  rw [this, Real.sqrt_mul (sq_nonneg k), Real.sqrt_sq_eq_abs]

/-- **C25**, lines: for `a ≠ b` the line starts at `a`, ends at `b`, has the distance as its length, and
is parametrised by length. -/
theorem C25_line {a b : V3} (h : a ≠ b) :
    (Path.line a b).length = Spec.dist a b ∧ (Path.line a b).start = some a ∧
    (Path.line a b).endpoint = some b ∧
    ∀ s t, ∃ P Q, (Path.line a b).func s = some P ∧ (Path.line a b).func t = some Q ∧
      Spec.dist P Q = |s - t| ∧ Spec.dist a P = |s| ∧ cross (P - a) (b - a) = 0 := by
  have hn := norm_sub_pos h
  refine ⟨rfl, line_start h, line_end h, fun s t => ⟨_, _, line_func h s, line_func h t, ?_, ?_, ?_⟩⟩
  · have : (1 - s / V3.norm (a - b)) * a + (s / V3.norm (a - b)) * b
        - ((1 - t / V3.norm (a - b)) * a + (t / V3.norm (a - b)) * b)
        = ((t - s) / V3.norm (a - b)) * (a - b) := by
      ext <;> simp <;> ring
    unfold Spec.dist
    rw [this, norm_smul', abs_div, abs_of_pos hn, div_mul_cancel₀ _ hn.ne', abs_sub_comm]
  · have : a - ((1 - s / V3.norm (a - b)) * a + (s / V3.norm (a - b)) * b)
        = (s / V3.norm (a - b)) * (a - b) := by
      ext <;> simp <;> ring
    unfold Spec.dist
    rw [this, norm_smul', abs_div, abs_of_pos hn, div_mul_cancel₀ _ hn.ne']
  · ext <;> simp [cross] <;> ring

example : (0 : V3) ≠ ⟨3, 0, 0⟩ := exFirst_ne

/-- Length of a chord of a circle of radius `r` for two points at distance `d` along the circle. -/
noncomputable def Spec.chord (r d : ℝ) : ℝ := 2 * r * |Real.sin (d / (2 * r))|

theorem chord_aux (α β : ℝ) : (Real.cos α - Real.cos β) ^ 2 + (Real.sin α - Real.sin β) ^ 2
    = (2 * |Real.sin ((α - β) / 2)|) ^ 2 := by
  have h1 : Real.cos (α - β) = 1 - 2 * Real.sin ((α - β) / 2) ^ 2 := by
    have := Real.cos_sq_add_sin_sq ((α - β) / 2)
    have h2 := Real.cos_two_mul ((α - β) / 2)
    rw [mul_div_cancel₀ _ (two_ne_zero)] at h2
    rw [h2]; linarith
  rw [Real.cos_sub] at h1
  have h3 := Real.cos_sq_add_sin_sq α
  have h4 := Real.cos_sq_add_sin_sq β
  rw [mul_pow, sq_abs]
  nlinarith

/-- two orthonormal directions -/
structure Ortho (x y : V3) : Prop where
  xx : dot x x = 1
  yy : dot y y = 1
  xy : dot x y = 0

theorem Ortho.dot_comb {x y : V3} (h : Ortho x y) (A B : ℝ) :
    dot (A * x + B * y) (A * x + B * y) = A ^ 2 + B ^ 2 := by
  have : dot (A * x + B * y) (A * x + B * y) = A ^ 2 * dot x x + 2 * A * B * dot x y + B ^ 2 * dot y y := by
    unfold dot; simp; ring
  rw [this, h.xx, h.yy, h.xy]; ring

theorem Ortho.circle_dist {x y : V3} (h : Ortho x y) (c : V3) {r : ℝ} (hr : 0 < r) (θ : ℝ) :
    Spec.dist (c + (r * Real.cos θ) * x + (r * Real.sin θ) * y) c = r := by
  have : c + (r * Real.cos θ) * x + (r * Real.sin θ) * y - c = (r * Real.cos θ) * x + (r * Real.sin θ) * y := by
    ext <;> simp <;> ring
  unfold Spec.dist V3.norm
  rw [this, h.dot_comb]
  have h2 := Real.cos_sq_add_sin_sq θ
  rw [show (r * Real.cos θ) ^ 2 + (r * Real.sin θ) ^ 2 = r ^ 2 by nlinarith]
  exact Real.sqrt_sq hr.le

theorem Ortho.circle_chord {x y : V3} (h : Ortho x y) (c : V3) {r : ℝ} (hr : 0 < r) (σ : ℝ) (hσ : σ = 1 ∨ σ = -1)
    (s t : ℝ) :
    Spec.dist (c + (r * Real.cos (σ * (s / r))) * x + (r * Real.sin (σ * (s / r))) * y)
      (c + (r * Real.cos (σ * (t / r))) * x + (r * Real.sin (σ * (t / r))) * y) = Spec.chord r (s - t) := by
  have : c + (r * Real.cos (σ * (s / r))) * x + (r * Real.sin (σ * (s / r))) * y -
      (c + (r * Real.cos (σ * (t / r))) * x + (r * Real.sin (σ * (t / r))) * y)
      = (r * (Real.cos (σ * (s / r)) - Real.cos (σ * (t / r)))) * x
        + (r * (Real.sin (σ * (s / r)) - Real.sin (σ * (t / r)))) * y := by
    ext <;> simp <;> ring
  unfold Spec.dist V3.norm
  rw [this, h.dot_comb, mul_pow, mul_pow, ← mul_add, chord_aux, ← mul_pow]
  rw [Real.sqrt_sq (by positivity)]
  unfold Spec.chord
  have e : (σ * (s / r) - σ * (t / r)) / 2 = σ * ((s - t) / (2 * r)) := by field_simp
  rw [e]
  rcases hσ with rfl | rfl
  · rw [one_mul]; ring
  · rw [neg_one_mul, Real.sin_neg, abs_neg]; ring

/-- geometry of the two unit vectors of an arc -/
theorem arc_frame {c a b : V3} (hx : cross (a - c) (b - c) ≠ 0) :
    a - c ≠ 0 ∧ (b - c) - (dot (b - c) (unit (a - c))) * unit (a - c) ≠ 0 ∧
    Ortho (unit (a - c)) (unit ((b - c) - (dot (b - c) (unit (a - c))) * unit (a - c))) ∧
    a - c = V3.norm (a - c) * unit (a - c) ∧
    (b - c) = (dot (b - c) (unit (a - c))) * unit (a - c) +
      (dot (b - c) (unit ((b - c) - (dot (b - c) (unit (a - c))) * unit (a - c)))) *
        unit ((b - c) - (dot (b - c) (unit (a - c))) * unit (a - c)) ∧
    0 < dot (b - c) (unit ((b - c) - (dot (b - c) (unit (a - c))) * unit (a - c))) := by
  generalize hA : a - c = A at *
  generalize hB : b - c = B at *
  have hA0 : A ≠ 0 := by
    rintro rfl; apply hx; ext <;> simp [cross]
  have hn := norm_pos hA0
  have hxx := dot_unit_self hA0
  have hAu : A = V3.norm A * unit A := by
    unfold unit; ext <;> simp <;> field_simp
  generalize hU : unit A = U at *
  set X := dot B U with hX
  set Y := B - X * U with hY
  have hY0 : Y ≠ 0 := by
    intro h
    apply hx
    have hB : B = X * U := V3.sub_eq_zero.1 h
    rw [hAu, hB]; ext <;> simp [cross] <;> ring
  have hnY := norm_pos hY0
  have hyy := dot_unit_self hY0
  have hYU : dot Y U = 0 := by
    have : dot Y U = dot B U - X * dot U U := by rw [hY]; unfold dot; simp; ring
    rw [this, hxx, ← hX]; ring
  have hYu : Y = V3.norm Y * unit Y := by
    unfold unit; ext <;> simp <;> field_simp
  have hUY : dot U (unit Y) = 0 := by
    have : dot Y U = V3.norm Y * dot U (unit Y) := by
      conv_lhs => rw [hYu]
      unfold dot; simp; ring
    rw [hYU] at this
    rcases mul_eq_zero.1 this.symm with h | h
    · exact absurd h hnY.ne'
    · exact h
  have hBY : dot B (unit Y) = V3.norm Y := by
    have h1 : B = X * U + V3.norm Y * unit Y := by
      rw [← hYu, hY]; ext <;> simp
    have h2 : dot B (unit Y) = X * dot U (unit Y) + V3.norm Y * dot (unit Y) (unit Y) := by
      conv_lhs => rw [h1]
      unfold dot; simp; ring
    rw [h2, hUY, hyy]; ring
  refine ⟨hA0, hY0, ⟨hxx, hyy, hUY⟩, hAu, ?_, by rw [hBY]; exact hnY⟩
  rw [hBY, ← hYu, hY]; ext <;> simp

/-- **C25**, arcs: if start, centre and end are not on a line, the arc starts at `a`, stays at distance
`r = |a - c|` from the centre, is parametrised by length, and ends on the ray from `c` through `b`, hence
at `b` if `b` is at distance `r`. Without `reverse` it is the short way round, with `reverse` the long
way: the angle is `φ` or `2π - φ` with `0 < φ < π`. -/
theorem C25_arc_partial {c a b : V3} (hx : cross (a - c) (b - c) ≠ 0) (reverse : Bool) :
    ∃ φ, 0 < φ ∧ φ < Real.pi ∧ Real.cos φ = dot (a - c) (b - c) / (Spec.dist a c * Spec.dist b c) ∧
    (Path.arc c a b reverse).length = Spec.dist a c * (if reverse then 2 * Real.pi - φ else φ) ∧
    (Path.arc c a b reverse).start = some a ∧
    (∃ E, (Path.arc c a b reverse).endpoint = some E ∧ E - c = (Spec.dist a c / Spec.dist b c) * (b - c) ∧
      (Spec.dist b c = Spec.dist a c → E = b)) ∧
    ∀ s t, ∃ P Q, (Path.arc c a b reverse).func s = some P ∧ (Path.arc c a b reverse).func t = some Q ∧
      Spec.dist P c = Spec.dist a c ∧ Spec.dist P Q = Spec.chord (Spec.dist a c) (s - t) := by
  obtain ⟨hA0, hY0, hO, hAu, hB, hYpos⟩ := arc_frame hx
  have hr : 0 < V3.norm (a - c) := norm_pos hA0
  set U := unit (a - c) with hU
  set W := unit ((b - c) - (dot (b - c) U) * U) with hW
  set X := dot (b - c) U with hX
  set Y := dot (b - c) W with hYd
  set r := V3.norm (a - c) with hrd
  have hnb : V3.norm (b - c) = Real.sqrt (X ^ 2 + Y ^ 2) := by
    unfold V3.norm; conv_lhs => rw [hB]
    rw [hO.dot_comb]
  have hD : 0 < X ^ 2 + Y ^ 2 := by positivity
  have hDs : 0 < Real.sqrt (X ^ 2 + Y ^ 2) := Real.sqrt_pos.2 hD
  have hz : (⟨X, Y⟩ : ℂ) ≠ 0 := by
    intro h; have := congrArg Complex.im h; simp at this; exact hYpos.ne' this
  have habs : ‖(⟨X, Y⟩ : ℂ)‖ = Real.sqrt (X ^ 2 + Y ^ 2) := by
    rw [Complex.norm_def, Complex.normSq_mk]; congr 1; ring
  set φ := atan2 Y X with hφ
  have hcos : Real.cos φ = X / Real.sqrt (X ^ 2 + Y ^ 2) := by
    rw [hφ, atan2, Complex.cos_arg hz, habs]
  have hsin : Real.sin φ = Y / Real.sqrt (X ^ 2 + Y ^ 2) := by
    rw [hφ, atan2, Complex.sin_arg, habs]
  have hφ0 : 0 < φ := by
    rcases lt_or_ge 0 φ with h | h
    · exact h
    · exfalso
      have h1 : -Real.pi < φ := Complex.neg_pi_lt_arg _
      have h2 : Real.sin φ ≤ 0 := Real.sin_nonpos_of_nonpos_of_neg_pi_le h h1.le
      rw [hsin] at h2
      have : 0 < Y / Real.sqrt (X ^ 2 + Y ^ 2) := by positivity
      linarith
  have hφ1 : φ < Real.pi := by
    have h1 : φ ≤ Real.pi := Complex.arg_le_pi _
    rcases h1.lt_or_eq with h | h
    · exact h
    · exfalso
      rw [h, Real.sin_pi] at hsin
      have : 0 < Y / Real.sqrt (X ^ 2 + Y ^ 2) := by positivity
      linarith
  -- the signed angle
  set θ := if reverse then φ - 2 * Real.pi else φ with hθ
  have hπ := Real.pi_pos
  have hlen : (Path.arc c a b reverse).length = |θ * r| := by
    cases reverse <;> rfl
  obtain ⟨σ, hσ, hσθ⟩ : ∃ σ : ℝ, (σ = 1 ∨ σ = -1) ∧ |θ * r| * σ = θ * r ∧ θ ≠ 0 := by
    cases reverse
    · refine ⟨1, Or.inl rfl, ?_, ?_⟩
      · rw [hθ]; simp only [Bool.false_eq_true, if_false]
        rw [abs_of_pos (by positivity), mul_one]
      · rw [hθ]; simpa using hφ0.ne'
    · refine ⟨-1, Or.inr rfl, ?_, ?_⟩
      · rw [hθ]; simp only [if_true]
        rw [abs_of_neg (mul_neg_of_neg_of_pos (by linarith) hr)]; ring
      · rw [hθ]; simp only [if_true]; intro h; linarith
  obtain ⟨hσθ, hθ0⟩ := hσθ
  have hl0 : |θ * r| ≠ 0 := abs_ne_zero.2 (mul_ne_zero hθ0 hr.ne')
  have hang : ∀ s, s / |θ * r| * θ = σ * (s / r) := by
    intro s
    have : θ = |θ * r| * σ / r := by rw [hσθ]; field_simp
    conv_lhs => rw [show s / |θ * r| * θ = s / |θ * r| * (|θ * r| * σ / r) by rw [← this]]
    field_simp
  have hfunc : ∀ s, (Path.arc c a b reverse).func s = some (c + (r * Real.cos (σ * (s / r))) * U
      + (r * Real.sin (σ * (s / r))) * W) := by
    intro s
    have h1 : (Path.arc c a b reverse).func s = (open Classical in if a - c = 0 ∨ (b - c) - X * U = 0 then none else
      (safeDiv s |θ * r|).map (fun q => c + (r * Real.cos (q * θ)) * U + (r * Real.sin (q * θ)) * W)) := by
      cases reverse <;> rfl
    rw [h1]
    simp only [hA0, hY0, or_self, if_false, safeDiv, hl0, Option.map_some, hang]
  have hsame : ∀ α : ℝ, Real.cos (σ * (|θ * r| / r)) = Real.cos φ ∧ Real.sin (σ * (|θ * r| / r)) = Real.sin φ := by
    intro _
    have : σ * (|θ * r| / r) = θ := by
      rw [show σ * (|θ * r| / r) = (|θ * r| * σ) / r by ring, hσθ]; field_simp
    rw [this, hθ]
    cases reverse
    · simp
    · simp [Real.cos_sub_two_pi, Real.sin_sub_two_pi]
  have hE : (Path.arc c a b reverse).endpoint = some (c + (r * Real.cos φ) * U + (r * Real.sin φ) * W) := by
    unfold Path.endpoint; rw [hfunc, hlen, (hsame 0).1, (hsame 0).2]
  have hdist : Spec.dist a c = r := rfl
  have hdistb : Spec.dist b c = Real.sqrt (X ^ 2 + Y ^ 2) := hnb
  have hEc : c + (r * Real.cos φ) * U + (r * Real.sin φ) * W - c
      = (Spec.dist a c / Spec.dist b c) * (b - c) := by
    rw [hcos, hsin, hdist, hdistb]
    conv_rhs => rw [hB]
    ext <;> simp <;> field_simp <;> ring
  refine ⟨φ, hφ0, hφ1, ?_, ?_, ?_, ⟨_, hE, hEc, ?_⟩, ?_⟩
  · rw [hcos, hdist, hdistb]
    have : dot (a - c) (b - c) = r * X := by
      conv_lhs => rw [hAu]
      rw [hX]; unfold dot; simp; ring
    rw [this]; field_simp
  · rw [hlen, hdist, abs_mul, abs_of_pos hr, mul_comm]
    congr 1
    rw [hθ]
    cases reverse
    · simp [abs_of_pos hφ0]
    · simp only [if_true]; rw [abs_of_neg (by linarith)]; ring
  · unfold Path.start; rw [hfunc]
    congr 1
    simp only [zero_div, mul_zero, Real.cos_zero, Real.sin_zero, mul_one]
    have h1 : c + (a - c) = a := by ext <;> simp
    rw [← h1]
    conv_rhs => rw [hAu]
    ext <;> simp
  · intro h
    have h1 : Spec.dist a c / Spec.dist b c = 1 := by rw [h, hdist]; exact div_self hr.ne'
    rw [h1] at hEc
    have h2 : c + (r * Real.cos φ) * U + (r * Real.sin φ) * W - c = b - c := by
      rw [hEc]; ext <;> simp
    have hx' := congrArg V3.x h2
    have hy' := congrArg V3.y h2
    have hz' := congrArg V3.z h2
    simp only [sub_x, sub_y, sub_z] at hx' hy' hz'
    ext <;> linarith
  · intro s t
    exact ⟨_, _, hfunc s, hfunc t, hO.circle_dist c hr _, hO.circle_chord c hr σ hσ s t⟩

/-- a quarter circle -/
example : cross ((⟨1, 0, 0⟩ : V3) - 0) (⟨0, 0, 1⟩ - 0) ≠ 0 := by
  intro h; have := congrArg V3.y h; simp [cross] at this

/-- **C25 is false for half circles**: for `b` opposite to `a` (same distance from the centre) the
second direction is 0/0, and no point of the arc is defined. -/
theorem C25_half_circle_refuted :
    Spec.dist (⟨1, 0, 0⟩ : V3) 0 = Spec.dist (⟨-1, 0, 0⟩ : V3) 0 ∧
    ∀ reverse s, (Path.arc 0 ⟨1, 0, 0⟩ ⟨-1, 0, 0⟩ reverse).func s = none := by
  constructor
  · simp [Spec.dist, V3.norm, dot]
  · intro reverse s
    have hY : (⟨-1, 0, 0⟩ : V3) - 0 - (dot ((⟨-1, 0, 0⟩ : V3) - 0) (unit (⟨1, 0, 0⟩ - 0))) * unit (⟨1, 0, 0⟩ - 0) = 0 := by
      ext <;> simp [unit, V3.norm, dot]
    unfold Path.arc
    simp only [hY, or_true, if_true]

/-! ### circles -/

theorem ortho_xz : Ortho ⟨1, 0, 0⟩ ⟨0, 0, 1⟩ := ⟨by simp [dot], by simp [dot], by simp [dot]⟩
theorem ortho_yz : Ortho ⟨0, 1, 0⟩ ⟨0, 0, 1⟩ := ⟨by simp [dot], by simp [dot], by simp [dot]⟩
theorem ortho_xy : Ortho ⟨1, 0, 0⟩ ⟨0, 1, 0⟩ := ⟨by simp [dot], by simp [dot], by simp [dot]⟩

/-- What is claimed of the circle paths: centre `c`, directions `x` (start) and `y`. -/
def Spec.IsCircle (p : Path) (c x y : V3) (r angle : ℝ) : Prop :=
  p.length = angle * r ∧ p.start = some (c + r * x) ∧
  p.endpoint = some (c + (r * Real.cos angle) * x + (r * Real.sin angle) * y) ∧
  (angle = 2 * Real.pi → p.endpoint = p.start) ∧
  ∀ s t, ∃ P Q, p.func s = some P ∧ p.func t = some Q ∧ Spec.dist P c = r ∧ Spec.dist P Q = Spec.chord r (s - t)

theorem circle_aux {p : Path} {c x y : V3} {r angle : ℝ} (hr : 0 < r) (hO : Ortho x y) (hl : p.length = angle * r)
    (hf : ∀ s, p.func s = some (c + (r * Real.cos (s / r)) * x + (r * Real.sin (s / r)) * y)) :
    IsCircle p c x y r angle := by
  have he : p.endpoint = some (c + (r * Real.cos angle) * x + (r * Real.sin angle) * y) := by
    unfold Path.endpoint; rw [hf, hl, mul_div_cancel_right₀ _ hr.ne']
  have hs : p.start = some (c + r * x) := by
    unfold Path.start; rw [hf]; congr 1; ext <;> simp
  refine ⟨hl, hs, he, ?_, ?_⟩
  · rintro rfl; rw [he, hs]; congr 1; ext <;> simp
  · intro s t
    refine ⟨_, _, hf s, hf t, hO.circle_dist c hr _, ?_⟩
    have := hO.circle_chord c hr 1 (Or.inl rfl) s t
    simpa only [one_mul] using this

/-- **C25**, circles: `circle_xz`, `circle_yz` and `circle_xy` start on the positive first axis, stay at
distance `radius` from the centre, are parametrised by length, and are closed for a full turn. -/
theorem C25_circles (u0 v0 angle : ℝ) {r : ℝ} (hr : 0 < r) :
    IsCircle (Path.circleXZ u0 v0 r angle) ⟨u0, 0, v0⟩ ⟨1, 0, 0⟩ ⟨0, 0, 1⟩ r angle ∧
    IsCircle (Path.circleYZ u0 v0 r angle) ⟨0, u0, v0⟩ ⟨0, 1, 0⟩ ⟨0, 0, 1⟩ r angle ∧
    IsCircle (Path.circleXY u0 v0 r angle) ⟨u0, v0, 0⟩ ⟨1, 0, 0⟩ ⟨0, 1, 0⟩ r angle := by
  refine ⟨circle_aux hr ortho_xz rfl ?_, circle_aux hr ortho_yz rfl ?_, circle_aux hr ortho_xy rfl ?_⟩ <;>
  · intro s
    simp only [Path.circleXZ, Path.circleYZ, Path.circleXY, Path.move, Path.mapPoints, safeDiv, hr.ne', if_false,
      Option.map_some, Option.bind_some, Option.some.injEq]
    ext <;> simp <;> ring

end Traceon
