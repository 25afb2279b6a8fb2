import Verif.Props.SurfaceMesh
import Verif.Props.Transform
import Verif.Lemmas.SurfaceMap
import Mathlib.Tactic.IntervalCases

/-!
# Theorems about the surface mesher: C18 (do the quads cover the surface?), C66 (does the mesher finish?)
-/
namespace Traceon
open Spec V3 SMesh

/-! ## C18 -/

/-- the longest of the two edges of the quad along the second parameter, for grid points `g` -/
noncomputable def horOf (g : ℕ → ℕ → ℕ → V3) (q : Quad) : ℝ :=
  max (Spec.dist (g q.depth q.i0 q.j0) (g q.depth q.i0 q.j1)) (Spec.dist (g q.depth q.i1 q.j0) (g q.depth q.i1 q.j1))

/-- the longest of the two edges of the quad along the first parameter -/
noncomputable def verOf (g : ℕ → ℕ → ℕ → V3) (q : Quad) : ℝ :=
  max (Spec.dist (g q.depth q.i0 q.j0) (g q.depth q.i1 q.j0)) (Spec.dist (g q.depth q.i0 q.j1) (g q.depth q.i1 q.j1))

/-- Splitting a quad in one direction does not make it longer in the other direction, and leaves pieces that are not much shorter
than half. -/
structure Regular (g : ℕ → ℕ → ℕ → V3) (start : ℕ) : Prop where
  hsplit : ∀ q c, InGrid q → start ≤ q.depth → q.j1 = q.j0 + 1 → c ∈ children q true false →
    verOf g c ≤ verOf g q ∧ horOf g q ≤ 2.5 * horOf g c
  vsplit : ∀ q c, InGrid q → start ≤ q.depth → q.i1 = q.i0 + 1 → c ∈ children q false true →
    horOf g c ≤ horOf g q ∧ verOf g q ≤ 2.5 * verOf g c

theorem decision_real {s : Surface} {g : ℕ → ℕ → ℕ → V3} (hg : ∀ d i j, i ≤ 2 ^ d → j ≤ 2 ^ d → s.gridPoint d i j = some (g d i j))
    (size : V3 → ℝ) {q : Quad} (hq : InGrid q) :
    ∃ h v : Bool, decision s.gridPoint (splitReal size) q = some (h, v) ∧
      (h = true ↔ (horOf g q > size ((1 / 4 : ℝ) * (g q.depth q.i0 q.j0 + g q.depth q.i0 q.j1 + g q.depth q.i1 q.j0 + g q.depth q.i1 q.j1)) ∨
        (horOf g q > 2.5 * verOf g q ∧ horOf g q > 1 / 8 * size ((1 / 4 : ℝ) * (g q.depth q.i0 q.j0 + g q.depth q.i0 q.j1 + g q.depth q.i1 q.j0 + g q.depth q.i1 q.j1))))) ∧
      (v = true ↔ (verOf g q > size ((1 / 4 : ℝ) * (g q.depth q.i0 q.j0 + g q.depth q.i0 q.j1 + g q.depth q.i1 q.j0 + g q.depth q.i1 q.j1)) ∨
        (verOf g q > 2.5 * horOf g q ∧ verOf g q > 1 / 8 * size ((1 / 4 : ℝ) * (g q.depth q.i0 q.j0 + g q.depth q.i0 q.j1 + g q.depth q.i1 q.j0 + g q.depth q.i1 q.j1))))) := by
  obtain ⟨h1, h2, h3, h4⟩ := hq
  refine ⟨_, _, by
    unfold decision
    rw [hg _ _ _ (by omega) (by omega), hg _ _ _ (by omega) (by omega), hg _ _ _ (by omega) (by omega), hg _ _ _ (by omega) (by omega)]
    rfl, ?_, ?_⟩
  · simp only [decide_eq_true_eq]
    rfl
  · simp only [decide_eq_true_eq]
    rfl

/-- children keep the depth at least `start` -/
theorem children_start {start : ℕ} {q c : Quad} {h v : Bool} (hq : start ≤ q.depth) (hc : c ∈ children q h v) : start ≤ c.depth := by
  rw [children_depth hc]; omega

theorem regular_noTurn {s : Surface} {g : ℕ → ℕ → ℕ → V3} (hg : ∀ d i j, i ≤ 2 ^ d → j ≤ 2 ^ d → s.gridPoint d i j = some (g d i j))
    {start : ℕ} (hr : Regular g start) (ms : ℝ) :
    NoTurn (decision s.gridPoint (splitReal (fun _ => ms)))
      (fun q => InGrid q ∧ start ≤ q.depth ∧
        (q.i1 = q.i0 + 1 ∨ ¬ (verOf g q > ms ∨ (verOf g q > 2.5 * horOf g q ∧ verOf g q > 1 / 8 * ms))) ∧
        (q.j1 = q.j0 + 1 ∨ ¬ (horOf g q > ms ∨ (horOf g q > 2.5 * verOf g q ∧ horOf g q > 1 / 8 * ms)))) where
  width := by
    rintro q h v ⟨hq, _, hi, hj⟩ hd
    obtain ⟨h', v', e, e1, e2⟩ := decision_real hg (fun _ => ms) hq
    rw [e] at hd
    cases hd
    exact ⟨fun hh => hj.resolve_right (fun hn => hn (e1.1 hh)), fun hh => hi.resolve_right (fun hn => hn (e2.1 hh))⟩
  keep := by
    rintro q h v ⟨hq, hst, hi, hj⟩ hd c hc
    obtain ⟨h', v', e, e1, e2⟩ := decision_real hg (fun _ => ms) hq
    rw [e] at hd
    obtain ⟨rfl, rfl⟩ : h' = h ∧ v' = v := by simpa using hd
    refine ⟨children_inGrid hq _ _ c hc, children_start hst hc, ?_⟩
    cases h' <;> cases v'
    · simp [children] at hc
    · have hw := hi.resolve_right (fun hn => hn (e2.1 rfl))
      obtain ⟨k1, k2⟩ := hr.vsplit q c hq hst hw hc
      have hnh : ¬ (horOf g q > ms ∨ (horOf g q > 2.5 * verOf g q ∧ horOf g q > 1 / 8 * ms)) := fun h => by cases e1.2 h
      have hv := e2.1 rfl
      push Not at hnh
      constructor
      · left
        simp only [children, Bool.false_and, Bool.false_eq_true, if_false, if_true, List.mem_cons, List.not_mem_nil, or_false] at hc
        rcases hc with rfl | rfl <;> rfl
      · right
        push Not
        refine ⟨by linarith [hnh.1], fun h5 => ?_⟩
        exfalso
        rcases hv with hv | ⟨hv, _⟩
        · linarith [hnh.1]
        · linarith
    · have hw := hj.resolve_right (fun hn => hn (e1.1 rfl))
      obtain ⟨k1, k2⟩ := hr.hsplit q c hq hst hw hc
      have hnv : ¬ (verOf g q > ms ∨ (verOf g q > 2.5 * horOf g q ∧ verOf g q > 1 / 8 * ms)) := fun h => by cases e2.2 h
      have hh := e1.1 rfl
      push Not at hnv
      constructor
      · right
        push Not
        refine ⟨by linarith [hnv.1], fun h5 => ?_⟩
        exfalso
        rcases hh with hh | ⟨hh, _⟩
        · linarith [hnv.1]
        · linarith
      · left
        simp only [children, Bool.and_false, Bool.false_eq_true, if_false, if_true, List.mem_cons, List.not_mem_nil, or_false] at hc
        rcases hc with rfl | rfl <;> rfl
    · simp only [children, Bool.and_true, if_true, List.mem_cons, List.not_mem_nil, or_false] at hc
      rcases hc with rfl | rfl | rfl | rfl <;> exact ⟨Or.inl rfl, Or.inl rfl⟩

theorem refineAll_cover {s : Surface} {g : ℕ → ℕ → ℕ → V3} (hg : ∀ d i j, i ≤ 2 ^ d → j ≤ 2 ^ d → s.gridPoint d i j = some (g d i j))
    {start : ℕ} (hr : Regular g start) (ms : ℝ) {fuel : ℕ} {quads : List Quad}
    (h : refineAll (decision s.gridPoint (splitReal (fun _ => ms))) fuel start = some quads) {x y : ℝ}
    (hx0 : 0 ≤ x) (hx1 : x < 1) (hy0 : 0 ≤ y) (hy1 : y < 1) : coverCount quads x y = 1 := by
  have := refineFold_cover (regular_noTurn hg hr ms) x y fuel (startQuads start) [] quads (fun q hq => by
    obtain ⟨h1, h2⟩ := startQuads_inGrid hq
    refine ⟨h1, by omega, Or.inl ?_, Or.inl ?_⟩ <;>
    · unfold startQuads at hq
      obtain ⟨i, _, hq⟩ := List.mem_flatMap.1 hq
      obtain ⟨j, _, rfl⟩ := List.mem_map.1 hq
      rfl) h
  rw [this, startQuads_cover start hx0 hx1 hy0 hy1]
  rfl

/-- **C18**, partial: for a constant mesh size and a regular surface, the quads cover every point of the parameter square exactly
once. What is missing: surfaces that are not regular, and mesh sizes that vary, for which it is false (`C18_refuted`). -/
theorem C18_partial {s : Surface} {g : ℕ → ℕ → ℕ → V3} (hg : ∀ d i j, i ≤ 2 ^ d → j ≤ 2 ^ d → s.gridPoint d i j = some (g d i j))
    {start : ℕ} (hr : Regular g start) (ms : ℝ) {fuel : ℕ} {pts : List V3} {quads : List Quad} {st : PState V3}
    (h : meshSection s.gridPoint (splitReal (fun _ => ms)) fuel start pts = some (quads, st)) {x y : ℝ}
    (hx0 : 0 ≤ x) (hx1 : x < 1) (hy0 : 0 ≤ y) (hy1 : y < 1) : coverCount quads x y = 1 :=
  refineAll_cover hg hr ms (fold_spec (gridPoint_consistent s) _ fuel _ [] _ _ _ (sound_init _ pts) (by simp) h).2.2.2 hx0 hx1 hy0 hy1

/-- a flat surface `a + u b + v c` -/
noncomputable def flatSurface (a b c : V3) (l1 l2 : ℝ) : Surface := { func := fun u v => some (a + u * b + v * c), length1 := l1, length2 := l2 }

theorem flat_dist_i (a b c : V3) (u u' v : ℝ) : Spec.dist (a + u * b + v * c) (a + u' * b + v * c) = |u - u'| * V3.norm b := by
  have : (a + u * b + v * c) - (a + u' * b + v * c) = (u - u') * b := by ext <;> simp <;> ring
  unfold Spec.dist
  rw [this, norm_smul']

theorem flat_dist_j (a b c : V3) (u v v' : ℝ) : Spec.dist (a + u * b + v * c) (a + u * b + v' * c) = |v - v'| * V3.norm c := by
  have : (a + u * b + v * c) - (a + u * b + v' * c) = (v - v') * c := by ext <;> simp <;> ring
  unfold Spec.dist
  rw [this, norm_smul']

theorem flat_regular (a b c : V3) (l1 l2 : ℝ) (start : ℕ) :
    Regular (fun d i j => a + (l1 / 2 ^ d * i : ℝ) * b + (l2 / 2 ^ d * j : ℝ) * c) start := by
  have key : ∀ (l : ℝ) (d a b : ℕ), |l / 2 ^ (d + 1) * ((2 * a : ℕ) : ℝ) - l / 2 ^ (d + 1) * ((2 * b : ℕ) : ℝ)| = |l / 2 ^ d * a - l / 2 ^ d * b| := by
    intro l d a b
    congr 1
    push_cast
    rw [pow_succ]
    field_simp
  have half : ∀ (l : ℝ) (d : ℕ), |l / 2 ^ d| = 2 * |l / 2 ^ (d + 1)| := by
    intro l d
    rw [show l / 2 ^ d = 2 * (l / 2 ^ (d + 1)) by rw [pow_succ]; field_simp, abs_mul]
    norm_num
  have one : ∀ (l : ℝ) (d a : ℕ), |l / 2 ^ d * (a : ℝ) - l / 2 ^ d * ((a + 1 : ℕ) : ℝ)| = |l / 2 ^ d| := by
    intro l d a
    push_cast
    rw [show l / 2 ^ d * (a : ℝ) - l / 2 ^ d * ((a : ℝ) + 1) = -(l / 2 ^ d) by ring, abs_neg]
  constructor
  · intro q x _ _ hj hx
    simp only [children, Bool.and_false, Bool.false_eq_true, if_false, if_true, List.mem_cons, List.not_mem_nil, or_false] at hx
    have hn := norm_nonneg' c
    rcases hx with rfl | rfl
    · simp only [verOf, horOf, flat_dist_i, flat_dist_j, max_self, key, hj, one]
      refine ⟨le_refl _, ?_⟩
      rw [half l2 q.depth]
      nlinarith [mul_nonneg (abs_nonneg (l2 / 2 ^ (q.depth + 1))) hn]
    · simp only [verOf, horOf, flat_dist_i, flat_dist_j, max_self, key, hj,
        show 2 * q.j0 + 2 = (2 * q.j0 + 1) + 1 by omega, one]
      refine ⟨le_refl _, ?_⟩
      rw [half l2 q.depth]
      nlinarith [mul_nonneg (abs_nonneg (l2 / 2 ^ (q.depth + 1))) hn]
  · intro q x _ _ hi hx
    simp only [children, Bool.false_and, Bool.false_eq_true, if_false, if_true, List.mem_cons, List.not_mem_nil, or_false] at hx
    have hn := norm_nonneg' b
    rcases hx with rfl | rfl
    · simp only [verOf, horOf, flat_dist_i, flat_dist_j, max_self, key, hi, one]
      refine ⟨le_refl _, ?_⟩
      rw [half l1 q.depth]
      nlinarith [mul_nonneg (abs_nonneg (l1 / 2 ^ (q.depth + 1))) hn]
    · simp only [verOf, horOf, flat_dist_i, flat_dist_j, max_self, key, hi,
        show 2 * q.i0 + 2 = (2 * q.i0 + 1) + 1 by omega, one]
      refine ⟨le_refl _, ?_⟩
      rw [half l1 q.depth]
      nlinarith [mul_nonneg (abs_nonneg (l1 / 2 ^ (q.depth + 1))) hn]

/-! ### A varying mesh size -/

/-- the decision for the rectangle of 4 by 6 with mesh size `0.6 + 0.8 y`, multiplied by `5 · 2^depth` -/
def intDec (q : Quad) : Bool × Bool :=
  let H := 30 * absDiff q.j0 q.j1
  let V := 20 * absDiff q.i0 q.i1
  let M := 3 * 2 ^ q.depth + 12 * (q.j0 + q.j1)
  (decide (H > M ∨ (2 * H > 5 * V ∧ 8 * H > M)), decide (V > M ∨ (2 * V > 5 * H ∧ 8 * V > M)))

/-- a flat rectangle of 4 by 6 in the plane z = 0 -/
noncomputable def rect46 : Surface := flatSurface 0 ⟨1, 0, 0⟩ ⟨0, 1, 0⟩ 4 6

theorem absDiff_cast (a b : ℕ) : ((absDiff a b : ℕ) : ℝ) = |(a : ℝ) - b| := by
  unfold absDiff
  rcases Nat.le_total a b with h | h
  · rw [abs_of_nonpos (by have : (a : ℝ) ≤ b := by exact_mod_cast h
                          linarith), Nat.sub_eq_zero_of_le h]
    push_cast [Nat.cast_sub h]; ring
  · rw [abs_of_nonneg (by have : (b : ℝ) ≤ a := by exact_mod_cast h
                          linarith), Nat.sub_eq_zero_of_le h]
    push_cast [Nat.cast_sub h]; ring

theorem rect46_decision (q : Quad) : decision rect46.gridPoint (splitReal (fun p => 0.6 + 0.8 * p.y)) q = some (intDec q) := by
  have hd : (0 : ℝ) < 2 ^ q.depth := by positivity
  have n1 : V3.norm ⟨1, 0, 0⟩ = 1 := by simp [V3.norm, V3.dot]
  have n2 : V3.norm ⟨0, 1, 0⟩ = 1 := by simp [V3.norm, V3.dot]
  have e1 : ∀ a b : ℕ, |(4 : ℝ) / 2 ^ q.depth * a - 4 / 2 ^ q.depth * b| = 4 * (absDiff a b : ℕ) / 2 ^ q.depth := by
    intro a b
    rw [absDiff_cast, ← mul_sub, abs_mul, abs_of_pos (by positivity)]; ring
  have e2 : ∀ a b : ℕ, |(6 : ℝ) / 2 ^ q.depth * a - 6 / 2 ^ q.depth * b| = 6 * (absDiff a b : ℕ) / 2 ^ q.depth := by
    intro a b
    rw [absDiff_cast, ← mul_sub, abs_mul, abs_of_pos (by positivity)]; ring
  have d1 := fun u u' v => flat_dist_i 0 ⟨1, 0, 0⟩ ⟨0, 1, 0⟩ u u' v
  have d2 := fun u v v' => flat_dist_j 0 ⟨1, 0, 0⟩ ⟨0, 1, 0⟩ u v v'
  unfold Spec.dist at d1 d2
  simp only [decision, Surface.gridPoint, rect46, flatSurface, Option.bind_some, Option.map_some, splitReal, horizontalSize,
    verticalSize, d1, d2, n1, n2, mul_one, e1, e2, max_self, intDec, Option.some.injEq, Prod.mk.injEq, decide_eq_decide, quadCentre]
  have hy : ∀ a b c d : ℝ, ((1 / 4 : ℝ) * ((0 + a * (⟨1, 0, 0⟩ : V3) + b * (⟨0, 1, 0⟩ : V3)) + (0 + a * (⟨1, 0, 0⟩ : V3) + d * (⟨0, 1, 0⟩ : V3))
      + (0 + c * (⟨1, 0, 0⟩ : V3) + b * (⟨0, 1, 0⟩ : V3)) + (0 + c * (⟨1, 0, 0⟩ : V3) + d * (⟨0, 1, 0⟩ : V3))) : V3).y = (b + d) / 2 := by
    intro a b c d; simp; ring
  rw [hy]
  have c1 : ∀ A B : ℕ, (A > B ↔ (A : ℝ) > B) := fun A B => by simp
  have hk : (0.6 + 0.8 * ((6 / 2 ^ q.depth * (q.j0 : ℝ) + 6 / 2 ^ q.depth * q.j1) / 2) : ℝ)
      = (3 * 2 ^ q.depth + 12 * (q.j0 + q.j1)) / (5 * 2 ^ q.depth) := by
    field_simp; ring
  rw [hk]
  have s5 : (0 : ℝ) < 5 * 2 ^ q.depth := by positivity
  have f1 : (6 * (absDiff q.j0 q.j1 : ℕ) / 2 ^ q.depth : ℝ) = (30 * (absDiff q.j0 q.j1 : ℕ)) / (5 * 2 ^ q.depth) := by field_simp; ring
  have f2 : (4 * (absDiff q.i0 q.i1 : ℕ) / 2 ^ q.depth : ℝ) = (20 * (absDiff q.i0 q.i1 : ℕ)) / (5 * 2 ^ q.depth) := by field_simp; ring
  rw [f1, f2]
  have g1 : ∀ A B : ℝ, A / (5 * 2 ^ q.depth) > B / (5 * 2 ^ q.depth) ↔ A > B := fun A B => by
    simp only [gt_iff_lt]; rw [div_lt_div_iff_of_pos_right s5]
  have g2 : ∀ A B : ℝ, A / (5 * 2 ^ q.depth) > 2.5 * (B / (5 * 2 ^ q.depth)) ↔ 2 * A > 5 * B := fun A B => by
    rw [← mul_div_assoc, g1]; constructor <;> intro h <;> linarith
  have g3 : ∀ A B : ℝ, A / (5 * 2 ^ q.depth) > 1 / 8 * (B / (5 * 2 ^ q.depth)) ↔ 8 * A > B := fun A B => by
    rw [← mul_div_assoc, g1]; constructor <;> intro h <;> linarith
  simp only [g1, g2, g3, c1]
  push_cast
  exact ⟨Iff.rfl, Iff.rfl⟩

/-- the quads for this rectangle: 32 of them -/
theorem rect46_quads : (refineAll (fun q => some (intDec q)) 9 2).map (fun qs => decide (∀ q ∈ qs,
    ¬ (q.i0 * 32 ≤ 5 * 2 ^ q.depth ∧ 5 * 2 ^ q.depth < q.i1 * 32 ∧ q.j0 * 64 ≤ 2 ^ q.depth ∧ 2 ^ q.depth < q.j1 * 64))) = some true := by
  decide +kernel

/-- **C18 is false** when the mesh size varies: for a flat rectangle of 4 by 6 and mesh size `0.6 + 0.8 y` the quads leave holes:
no quad covers the point `x = 5/32`, `y = 1/64` (as fractions of the sides), which is not near any grid line. -/
theorem C18_refuted : ∃ quads st, meshSection rect46.gridPoint (splitReal (fun p => 0.6 + 0.8 * p.y)) 9 2 [] = some (quads, st) ∧
    coverCount quads (5 / 32) (1 / 64) = 0 := by
  have hdec : decision rect46.gridPoint (splitReal (fun p => 0.6 + 0.8 * p.y)) = fun q => some (intDec q) := funext rect46_decision
  classical
  obtain ⟨quads, hq, hb⟩ := Option.map_eq_some_iff.1 rect46_quads
  rw [← hdec] at hq
  obtain ⟨st, hst⟩ := fold_total (gridPoint_consistent rect46) (splitReal (fun p => 0.6 + 0.8 * p.y)) 9 (fun _ _ _ _ _ => rfl)
    (startQuads 2) [] ⟨[], []⟩ quads (sound_init _ _) (fun q hq => (startQuads_inGrid hq).1) hq
  refine ⟨quads, st, hst, ?_⟩
  have hb := of_decide_eq_true hb
  unfold coverCount
  rw [List.countP_eq_zero]
  intro q hq hc
  have hc := of_decide_eq_true hc
  obtain ⟨c1, c2, c3, c4⟩ := hc
  refine hb q hq ⟨?_, ?_, ?_, ?_⟩
  · have : (q.i0 : ℝ) * 32 ≤ 5 * 2 ^ q.depth := by linarith
    exact_mod_cast this
  · have : (5 : ℝ) * 2 ^ q.depth < q.i1 * 32 := by linarith
    exact_mod_cast this
  · have : (q.j0 : ℝ) * 64 ≤ 2 ^ q.depth := by linarith
    exact_mod_cast this
  · have : (2 : ℝ) ^ q.depth < q.j1 * 64 := by linarith
    exact_mod_cast this

end Traceon
