import Verif.Spec.Similar
import Verif.Props.Linear4

/-!
# C86: rings, lines and coils under a motion along the axis, a reflection and a change of the unit of length
-/
namespace Traceon
open Spec Excitation V3

namespace Spec.Similarity
variable (S : Similarity)

theorem scale_ne : S.scale ≠ 0 := S.pos.ne'

theorem dir_mul : S.dir * S.dir = 1 := by rcases S.dir_eq with h | h <;> rw [h] <;> norm_num

theorem dir_sq : S.dir ^ 2 = 1 := by rw [pow_two, S.dir_mul]

theorem dir_ne : S.dir ≠ 0 := by rcases S.dir_eq with h | h <;> rw [h] <;> norm_num

theorem dir_dir (a : ℝ) : S.dir * (S.dir * a) = a := by rw [← mul_assoc, S.dir_mul, one_mul]

theorem KeepsAxis.iff {S : Similarity} {r : ℝ} (h : S.KeepsAxis r) : S.scale * r < minDistanceAxis ↔ r < minDistanceAxis := h.1

theorem sqrt_scale (a : ℝ) : Real.sqrt (S.scale ^ 2 * a) = S.scale * Real.sqrt a := by
  rw [Real.sqrt_mul (sq_nonneg _), Real.sqrt_sq S.pos.le]

theorem norm2d_move (p : V3) : norm2d (S.move p).x (S.move p).y = S.scale * norm2d p.x p.y := by
  unfold norm2d
  rw [← S.sqrt_scale]
  congr 1
  simp only [move]
  ring

theorem ring_potential_pos (K : ℝ → ℝ) (r0 z0 r z : ℝ) :
    potentialRingWith K (S.scale * r0) (S.scale * z0 + S.shift) (S.scale * r) (S.scale * z + S.shift) = potentialRingWith K r0 z0 r z := by
  have hk := S.scale_ne
  unfold potentialRingWith
  simp only
  have e1 : S.scale * z + S.shift - (S.scale * z0 + S.shift) = S.scale * (z - z0) := by ring
  have e2 : S.scale * r - S.scale * r0 = S.scale * (r - r0) := by ring
  rw [e1, e2]
  have e3 : (S.scale * (z - z0)) ^ 2 + (S.scale * (r - r0) + 2 * (S.scale * r0)) ^ 2 = S.scale ^ 2 * ((z - z0) ^ 2 + (r - r0 + 2 * r0) ^ 2) := by ring
  have e4 : ((S.scale * (z - z0)) ^ 2 + (S.scale * (r - r0)) ^ 2) / ((S.scale * (z - z0)) ^ 2 + (S.scale * (r - r0)) ^ 2 + 4 * (S.scale * r0) * (S.scale * (r - r0)) + 4 * (S.scale * r0) ^ 2) =
      ((z - z0) ^ 2 + (r - r0) ^ 2) / ((z - z0) ^ 2 + (r - r0) ^ 2 + 4 * r0 * (r - r0) + 4 * r0 ^ 2) := by
    rw [← mul_div_mul_left _ ((z - z0) ^ 2 + (r - r0) ^ 2 + 4 * r0 * (r - r0) + 4 * r0 ^ 2) (pow_ne_zero 2 hk)]
    congr 1 <;> ring
  rw [e3, e4, S.sqrt_scale]
  have e5 : S.scale * (r - r0) + S.scale * r0 = S.scale * (r - r0 + r0) := by ring
  rw [e5, ← mul_div_mul_left _ (Real.sqrt ((z - z0) ^ 2 + (r - r0 + 2 * r0) ^ 2)) hk]
  congr 1
  ring

theorem ring_dz1_pos (E : ℝ → ℝ) (r0 z0 r z : ℝ) :
    dz1RingWith E (S.scale * r0) (S.scale * z0 + S.shift) (S.scale * r) (S.scale * z + S.shift) = dz1RingWith E r0 z0 r z / S.scale := by
  have hk := S.scale_ne
  unfold dz1RingWith
  simp only
  have e1 : S.scale * z + S.shift - (S.scale * z0 + S.shift) = S.scale * (z - z0) := by ring
  have e2 : S.scale * r - S.scale * r0 = S.scale * (r - r0) := by ring
  rw [e1, e2]
  generalize hw : 4 * r0 * r0 + 4 * (r - r0) * r0 + (z - z0) * (z - z0) + (r - r0) * (r - r0) = w
  have e3 : 4 * (S.scale * r0) * (S.scale * r0) + 4 * (S.scale * (r - r0)) * (S.scale * r0) + S.scale * (z - z0) * (S.scale * (z - z0)) + S.scale * (r - r0) * (S.scale * (r - r0)) =
      S.scale ^ 2 * w := by rw [← hw]; ring
  have e4 : (S.scale * (z - z0) * (S.scale * (z - z0)) + S.scale * (r - r0) * (S.scale * (r - r0))) / (S.scale ^ 2 * w) =
      ((z - z0) * (z - z0) + (r - r0) * (r - r0)) / w := by
    rw [← mul_div_mul_left _ w (pow_ne_zero 2 hk)]
    congr 1; ring
  rw [e3, e4, S.sqrt_scale]
  generalize E _ = c
  have e5 : (S.scale * (z - z0) * (S.scale * (z - z0)) + S.scale * (r - r0) * (S.scale * (r - r0))) * (S.scale * Real.sqrt w) =
      S.scale ^ 2 * ((((z - z0) * (z - z0) + (r - r0) * (r - r0)) * Real.sqrt w) * S.scale) := by ring
  rw [e5, div_div, ← mul_div_mul_left _ ((((z - z0) * (z - z0) + (r - r0) * (r - r0)) * Real.sqrt w) * S.scale) (pow_ne_zero 2 hk)]
  congr 1
  ring

theorem ring_dr1_pos (K E : ℝ → ℝ) {r0 : ℝ} (h : S.KeepsAxis r0) (z0 r z : ℝ) :
    dr1RingWith K E (S.scale * r0) (S.scale * z0 + S.shift) (S.scale * r) (S.scale * z + S.shift) = dr1RingWith K E r0 z0 r z / S.scale := by
  have hk := S.scale_ne
  unfold dr1RingWith
  by_cases hr : r0 < minDistanceAxis
  · rw [if_pos hr, if_pos (h.iff.2 hr), zero_div]
  · rw [if_neg hr, if_neg (mt h.iff.1 hr)]
    simp only
    have e1 : S.scale * z + S.shift - (S.scale * z0 + S.shift) = S.scale * (z - z0) := by ring
    have e2 : S.scale * r - S.scale * r0 = S.scale * (r - r0) := by ring
    rw [e1, e2]
    generalize z - z0 = dz
    generalize r - r0 = dr
    generalize hw : 4 * r * r - 4 * dr * r + dz * dz + dr * dr = w
    have e3 : 4 * (S.scale * r) * (S.scale * r) - 4 * (S.scale * dr) * (S.scale * r) + S.scale * dz * (S.scale * dz) + S.scale * dr * (S.scale * dr) =
        S.scale ^ 2 * w := by rw [← hw]; ring
    have e4 : (S.scale * dz * (S.scale * dz) + S.scale * dr * (S.scale * dr)) / (S.scale ^ 2 * w) = (dz * dz + dr * dr) / w := by
      rw [← mul_div_mul_left _ w (pow_ne_zero 2 hk)]
      congr 1; ring
    rw [e3, e4, S.sqrt_scale]
    generalize K _ = a
    generalize E _ = b
    generalize Real.sqrt w = u
    have e5 : (-2 * (S.scale * dr) * (S.scale * dr) * (S.scale * r) + S.scale * dz * (S.scale * dz) * (2 * (S.scale * dr) - 2 * (S.scale * r)) + 2 * (S.scale * dr) * (S.scale * dr) * (S.scale * dr)) * (S.scale * u) =
        S.scale ^ 3 * (((-2 * dr * dr * r + dz * dz * (2 * dr - 2 * r) + 2 * dr * dr * dr) * u) * S.scale) := by ring
    rw [e5, div_div, ← mul_div_mul_left _ (((-2 * dr * dr * r + dz * dz * (2 * dr - 2 * r) + 2 * dr * dr * dr) * u) * S.scale) (pow_ne_zero 3 hk)]
    congr 1
    ring

theorem ring_current_pos (K E : ℝ → ℝ) {x0 x : ℝ} (h0 : S.KeepsAxis x0) (h : S.KeepsAxis x) (y0 y : ℝ) :
    currentFieldRingWith K E (S.scale * x0) (S.scale * y0 + S.shift) (S.scale * x) (S.scale * y + S.shift) =
      ((currentFieldRingWith K E x0 y0 x y).1 / S.scale, (currentFieldRingWith K E x0 y0 x y).2 / S.scale) := by
  have hk := S.scale_ne
  unfold currentFieldRingWith
  simp only
  by_cases hx : x < minDistanceAxis
  · rw [if_pos hx, if_pos (h.iff.2 hx)]; simp
  · rw [if_neg hx, if_neg (mt h.iff.1 hx)]
    have e1 : S.scale * y0 + S.shift - (S.scale * y + S.shift) = S.scale * (y0 - y) := by ring
    rw [e1]
    generalize y0 - y = z
    generalize hA : z ^ 2 + (x + x0) ^ 2 = A
    generalize hB : z ^ 2 + (x0 - x) ^ 2 = B
    have eA : (S.scale * z) ^ 2 + (S.scale * x + S.scale * x0) ^ 2 = S.scale ^ 2 * A := by rw [← hA]; ring
    have eB : (S.scale * z) ^ 2 + (S.scale * x0 - S.scale * x) ^ 2 = S.scale ^ 2 * B := by rw [← hB]; ring
    have ek : 4 * (S.scale * x0) * (S.scale * x) / (S.scale ^ 2 * A) = 4 * x0 * x / A := by
      rw [← mul_div_mul_left _ A (pow_ne_zero 2 hk)]
      congr 1; ring
    have e2 : ((S.scale * z) ^ 2 + (S.scale * x0) ^ 2 + (S.scale * x) ^ 2) / (S.scale ^ 2 * B) = (z ^ 2 + x0 ^ 2 + x ^ 2) / B := by
      rw [← mul_div_mul_left _ B (pow_ne_zero 2 hk)]
      congr 1; ring
    have e3 : ((S.scale * x) ^ 2 - (S.scale * z) ^ 2 - (S.scale * x0) ^ 2) / (S.scale ^ 2 * B) = (x ^ 2 - z ^ 2 - x0 ^ 2) / B := by
      rw [← mul_div_mul_left _ B (pow_ne_zero 2 hk)]
      congr 1; ring
    rw [eA, eB, ek, e2, e3, S.sqrt_scale]
    generalize K _ = a
    generalize E _ = b
    generalize Real.sqrt A = u
    refine Prod.ext ?_ ?_
    · by_cases h0' : x0 < minDistanceAxis
      · simp only [if_pos h0', if_pos (h0.iff.2 h0'), zero_div]
      · simp only [if_neg h0', if_neg (mt h0.iff.1 h0')]
        have e5 : 2 * (S.scale * x0) * (S.scale * u) = S.scale * ((2 * x0 * u) * S.scale) := by ring
        rw [e5, show 1 / Real.pi * (S.scale * z) = S.scale * (1 / Real.pi * z) by ring, mul_div_mul_left _ _ hk, ← div_div]
        ring
    · simp only
      rw [show 2 * (S.scale * u) = (2 * u) * S.scale by ring, ← div_div]
      ring

/-! ### Reflections -/

theorem _root_.Traceon.potential_mirror (K : ℝ → ℝ) (r0 z0 r z : ℝ) : potentialRingWith K r0 (-z0) r (-z) = potentialRingWith K r0 z0 r z := by
  unfold potentialRingWith
  simp only
  rw [show (-z - -z0) ^ 2 = (z - z0) ^ 2 by ring]

theorem _root_.Traceon.dz1_mirror (E : ℝ → ℝ) (r0 z0 r z : ℝ) : dz1RingWith E r0 (-z0) r (-z) = -dz1RingWith E r0 z0 r z := by
  unfold dz1RingWith
  simp only
  rw [show (-z - -z0) * (-z - -z0) = (z - z0) * (z - z0) by ring, show -z - -z0 = -(z - z0) by ring]
  ring

theorem _root_.Traceon.dr1_mirror (K E : ℝ → ℝ) (r0 z0 r z : ℝ) : dr1RingWith K E r0 (-z0) r (-z) = dr1RingWith K E r0 z0 r z := by
  unfold dr1RingWith
  simp only
  have e : (-z - -z0) * (-z - -z0) = (z - z0) * (z - z0) := by ring
  have e' : -z - -z0 = -(z - z0) := by ring
  have e2 : ∀ a : ℝ, a * (-z - -z0) * (-z - -z0) = a * (z - z0) * (z - z0) := by intro a; ring
  simp only [e, e2]

theorem _root_.Traceon.current_mirror (K E : ℝ → ℝ) (x0 y0 x y : ℝ) :
    currentFieldRingWith K E x0 (-y0) x (-y) = (-(currentFieldRingWith K E x0 y0 x y).1, (currentFieldRingWith K E x0 y0 x y).2) := by
  unfold currentFieldRingWith
  simp only
  have e : (-y0 - -y) ^ 2 = (y0 - y) ^ 2 := by ring
  have e' : -y0 - -y = -(y0 - y) := by ring
  by_cases hx : x < minDistanceAxis
  · simp only [if_pos hx, neg_zero]
  · simp only [if_neg hx, e]
    refine Prod.ext ?_ rfl
    by_cases h0 : x0 < minDistanceAxis
    · simp only [if_pos h0, neg_zero]
    · simp only [if_neg h0, e']
      ring

theorem ring_potential (K : ℝ → ℝ) (r0 z0 r z : ℝ) :
    potentialRingWith K (S.scale * r0) (S.scale * (S.dir * z0) + S.shift) (S.scale * r) (S.scale * (S.dir * z) + S.shift) = potentialRingWith K r0 z0 r z := by
  rw [ring_potential_pos]
  rcases S.dir_eq with h | h <;> rw [h]
  · rw [one_mul, one_mul]
  · rw [neg_one_mul, neg_one_mul, potential_mirror]

theorem ring_dz1 (E : ℝ → ℝ) (r0 z0 r z : ℝ) :
    dz1RingWith E (S.scale * r0) (S.scale * (S.dir * z0) + S.shift) (S.scale * r) (S.scale * (S.dir * z) + S.shift) = S.dir * (dz1RingWith E r0 z0 r z / S.scale) := by
  rw [ring_dz1_pos]
  rcases S.dir_eq with h | h <;> rw [h]
  · rw [one_mul, one_mul, one_mul]
  · rw [neg_one_mul, neg_one_mul, dz1_mirror]; ring

theorem ring_dr1 (K E : ℝ → ℝ) {r0 : ℝ} (h : S.KeepsAxis r0) (z0 r z : ℝ) :
    dr1RingWith K E (S.scale * r0) (S.scale * (S.dir * z0) + S.shift) (S.scale * r) (S.scale * (S.dir * z) + S.shift) = dr1RingWith K E r0 z0 r z / S.scale := by
  rw [ring_dr1_pos S K E h]
  rcases S.dir_eq with h | h <;> rw [h]
  · rw [one_mul, one_mul]
  · rw [neg_one_mul, neg_one_mul, dr1_mirror]

/-- with the sign of the current changed for a reflection -/
theorem ring_current (K E : ℝ → ℝ) {x0 x : ℝ} (h0 : S.KeepsAxis x0) (h : S.KeepsAxis x) (y0 y : ℝ) :
    currentFieldRingWith K E (S.scale * x0) (S.scale * (S.dir * y0) + S.shift) (S.scale * x) (S.scale * (S.dir * y) + S.shift) =
      (S.dir * ((currentFieldRingWith K E x0 y0 x y).1 / S.scale), (currentFieldRingWith K E x0 y0 x y).2 / S.scale) := by
  rw [ring_current_pos S K E h0 h]
  rcases S.dir_eq with h | h <;> rw [h]
  · rw [one_mul, one_mul, one_mul]
  · rw [neg_one_mul, neg_one_mul, current_mirror]
    refine Prod.ext ?_ rfl
    simp only; ring

/-! ## Lines -/

theorem pos_line (l : Line4) (α : ℝ) : linePos (S.line l) α = (S.scale * (linePos l α).1, S.scale * (S.dir * (linePos l α).2) + S.shift) := by
  simp only [linePos, curvePos, curvePos1, line, move]
  refine Prod.ext ?_ ?_ <;> simp only <;> ring

theorem jac_line (l : Line4) (α : ℝ) : lineJac (S.line l) α = S.scale * lineJac l α := by
  simp only [lineJac, curveJac, line, move]
  rw [show ∀ a b : ℝ, S.scale * (1 / 16 * b) = 1 / 16 * (S.scale * b) by intro a b; ring, ← S.sqrt_scale]
  · congr 2
    have hd := S.dir_sq
    rcases S.dir_eq with h | h <;> rw [h] <;> ring
  · exact 0

theorem normal_line (l : Line4) : lineNormal (S.line l) = (S.dir * (lineNormal l).1, (lineNormal l).2) := by
  have hk := S.scale_ne
  simp only [lineNormal, curveNormal, normal2d, line, move]
  generalize hx : curveTan1 0 l.l0.x l.l2.x l.l3.x l.l1.x = a
  generalize hz : curveTan1 0 l.l0.z l.l2.z l.l3.z l.l1.z = b
  have hx' : curveTan1 0 (S.scale * l.l0.x) (S.scale * l.l2.x) (S.scale * l.l3.x) (S.scale * l.l1.x) = S.scale * a := by
    rw [← hx]; unfold curveTan1; ring
  have hz' : curveTan1 0 (S.scale * (S.dir * l.l0.z) + S.shift) (S.scale * (S.dir * l.l2.z) + S.shift) (S.scale * (S.dir * l.l3.z) + S.shift) (S.scale * (S.dir * l.l1.z) + S.shift) =
      S.scale * (S.dir * b) := by
    rw [← hz]; unfold curveTan1; ring
  rw [hx', hz']
  have e : (S.scale * (S.dir * b) - 0) * (S.scale * (S.dir * b) - 0) + -(S.scale * a - 0) * -(S.scale * a - 0) = S.scale ^ 2 * ((b - 0) * (b - 0) + -(a - 0) * -(a - 0)) := by
    have := S.dir_sq
    linear_combination (S.scale ^ 2 * b ^ 2) * this
  rw [e, S.sqrt_scale]
  refine Prod.ext ?_ ?_
  · simp only [sub_zero]
    rw [mul_div_mul_left _ _ hk, mul_div_assoc]
  · simp only [sub_zero]
    rw [← mul_neg, mul_div_mul_left _ _ hk]

theorem centre_line (l : Line4) : lineCentre (S.line l) = S.move (lineCentre l) := by
  unfold lineCentre
  rw [pos_line]
  ext <;> simp [move]

theorem posRow_line (l : Line4) : linePosRow (S.line l) = (linePosRow l).map fun q => (S.scale * q.1, S.scale * (S.dir * q.2) + S.shift) := by
  unfold linePosRow
  rw [List.map_map]
  refine List.map_congr_left fun g _ => ?_
  rw [pos_line]; rfl

theorem jacRow_line (l : Line4) : lineJacRow (S.line l) = (lineJacRow l).map (S.scale * ·) := by
  unfold lineJacRow
  rw [List.map_map]
  refine List.map_congr_left fun g _ => ?_
  rw [jac_line]; simp only [Function.comp]; ring

end Spec.Similarity

/-! ## Lines in the other direction -/

theorem pos_reverse (l : Line4) (α : ℝ) : linePos l.turned α = linePos l (-α) := by
  simp only [linePos, curvePos, curvePos1, Line4.turned]
  refine Prod.ext ?_ ?_ <;> simp only <;> ring

theorem jac_reverse (l : Line4) (α : ℝ) : lineJac l.turned α = lineJac l (-α) := by
  simp only [lineJac, curveJac, Line4.turned]
  congr 2
  ring

/-- The 16-point rule is symmetric. -/
theorem gaussRule_symmetric (f : ℝ → ℝ) : (gaussRule.map fun g => g.1 * f (-g.2)).sum = (gaussRule.map fun g => g.1 * f g.2).sum := by
  simp only [gaussRule, List.map_cons, List.map_nil, List.sum_cons, List.sum_nil, neg_neg]
  ring

/-- What a line contributes to the potential or field of `f` per unit charge. -/
noncomputable def lineSum (l : Line4) (f : ℝ × ℝ → ℝ) : ℝ := (((lineJacRow l).zip (linePosRow l)).map fun k => k.1 * f k.2).sum

theorem lineSum_eq (l : Line4) (f : ℝ × ℝ → ℝ) : lineSum l f = (gaussRule.map fun g => g.1 * (lineJac l g.2 * f (linePos l g.2))).sum := by
  unfold lineSum lineJacRow linePosRow
  rw [List.zip_map', List.map_map]
  congr 1
  refine List.map_congr_left fun g _ => ?_
  simp only [Function.comp]; ring

theorem lineSum_reverse (l : Line4) (f : ℝ × ℝ → ℝ) : lineSum l.turned f = lineSum l f := by
  rw [lineSum_eq, lineSum_eq, ← gaussRule_symmetric fun a => lineJac l a * f (linePos l a)]
  simp only [pos_reverse, jac_reverse]

theorem lineSum_move (S : Similarity) (l : Line4) {f f' : ℝ × ℝ → ℝ} {c : ℝ} (h : ∀ q, f' (S.scale * q.1, S.scale * (S.dir * q.2) + S.shift) = c * f q) :
    lineSum (S.line l) f' = S.scale * c * lineSum l f := by
  rw [lineSum_eq, lineSum_eq, ← List.sum_map_mul_left]
  congr 1
  refine List.map_congr_left fun g _ => ?_
  rw [S.pos_line, S.jac_line, h]
  ring

end Traceon
