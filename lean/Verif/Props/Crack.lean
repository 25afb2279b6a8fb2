import Verif.Lemmas.Uniform
import Verif.Spec.Crack
import Verif.Props.ElementCharge

/-!
# C101: the mesh of a surface has no cracks
-/
namespace Traceon
open Spec V3 SMesh

theorem dist_triangle' (a b c : V3) : Spec.dist a c ≤ Spec.dist a b + Spec.dist b c := by
  unfold Spec.dist
  have h := V3.abs_norm_sub_le (a - c) (b - c)
  have e : (a - c) - (b - c) = a - b := by ext <;> simp
  rw [e] at h
  have := (abs_le.1 h).2
  linarith

/-- the surface at a grid position -/
noncomputable def evenGrid (s : Surface) (d i j : ℕ) : V3 := (s.func (s.length1 / 2 ^ d * i) (s.length2 / 2 ^ d * j)).getD 0

theorem grid_range {l : ℝ} (hl : 0 ≤ l) {d i : ℕ} (hi : i ≤ 2 ^ d) : 0 ≤ l / 2 ^ d * i ∧ l / 2 ^ d * i ≤ l := by
  have h2 : (0 : ℝ) < 2 ^ d := by positivity
  have hi' : (i : ℝ) ≤ 2 ^ d := by exact_mod_cast hi
  refine ⟨by positivity, ?_⟩
  rw [div_mul_eq_mul_div, div_le_iff₀ h2]
  exact mul_le_mul_of_nonneg_left hi' hl

theorem evenGrid_some {s : Surface} (hs : GoodSurface s) (h1 : 0 ≤ s.length1) (h2 : 0 ≤ s.length2) {d i j : ℕ} (hi : i ≤ 2 ^ d) (hj : j ≤ 2 ^ d) :
    s.gridPoint d i j = some (evenGrid s d i j) := by
  obtain ⟨p, hp⟩ := Option.isSome_iff_exists.1 (hs.total _ _ (grid_range h1 hi).1 (grid_range h1 hi).2 (grid_range h2 hj).1 (grid_range h2 hj).2)
  unfold evenGrid Surface.gridPoint
  rw [hp]; rfl

theorem even_i {s : Surface} {fu fv : ℝ → ℝ} (he : Even s fu fv) (hs : GoodSurface s) (h1 : 0 ≤ s.length1) (h2 : 0 ≤ s.length2) {d i i' j : ℕ}
    (hi : i ≤ 2 ^ d) (hi' : i' ≤ 2 ^ d) (hj : j ≤ 2 ^ d) :
    Spec.dist (evenGrid s d i j) (evenGrid s d i' j) = fu |s.length1 / 2 ^ d * i - s.length1 / 2 ^ d * i'| :=
  he.first _ _ _ _ _ (grid_range h1 hi).1 (grid_range h1 hi).2 (grid_range h1 hi').1 (grid_range h1 hi').2 (grid_range h2 hj).1 (grid_range h2 hj).2
    (evenGrid_some hs h1 h2 hi hj) (evenGrid_some hs h1 h2 hi' hj)

theorem even_j {s : Surface} {fu fv : ℝ → ℝ} (he : Even s fu fv) (hs : GoodSurface s) (h1 : 0 ≤ s.length1) (h2 : 0 ≤ s.length2) {d i j j' : ℕ}
    (hi : i ≤ 2 ^ d) (hj : j ≤ 2 ^ d) (hj' : j' ≤ 2 ^ d) :
    Spec.dist (evenGrid s d i j) (evenGrid s d i j') = fv |s.length2 / 2 ^ d * j - s.length2 / 2 ^ d * j'| :=
  he.second _ _ _ _ _ (grid_range h1 hi).1 (grid_range h1 hi).2 (grid_range h2 hj).1 (grid_range h2 hj).2 (grid_range h2 hj').1 (grid_range h2 hj').2
    (evenGrid_some hs h1 h2 hi hj) (evenGrid_some hs h1 h2 hi hj')

/-- a cell of the grid of `2^a` cells is `l / 2^a` wide -/
theorem cell_width {l : ℝ} (hl : 0 ≤ l) {a d x : ℕ} (h : a ≤ d) :
    |l / 2 ^ d * ((x * 2 ^ (d - a) : ℕ) : ℝ) - l / 2 ^ d * (((x + 1) * 2 ^ (d - a) : ℕ) : ℝ)| = l / 2 ^ a := by
  have e : (2 : ℝ) ^ d = 2 ^ a * 2 ^ (d - a) := by rw [← pow_add]; congr 1; omega
  have h1 : (0 : ℝ) < 2 ^ a := by positivity
  have h2 : (0 : ℝ) < 2 ^ (d - a) := by positivity
  push_cast
  rw [e]
  generalize (2 : ℝ) ^ (d - a) = w at h2
  generalize (2 : ℝ) ^ a = A at h1
  have : l / (A * w) * (x * w) - l / (A * w) * ((x + 1) * w) = -(l / A) := by field_simp; ring
  rw [this, abs_neg, abs_of_nonneg (by positivity)]

theorem cell_bounds {a b : ℕ} {q : Quad} (h : Cell a b q) : InGrid q := by
  obtain ⟨hd, x, y, hx, hy, e1, e2, e3, e4⟩ := h
  have h1 : a ≤ q.depth := by rw [hd]; exact le_max_left _ _
  have h2 : b ≤ q.depth := by rw [hd]; exact le_max_right _ _
  have p1 : 0 < 2 ^ (q.depth - a) := by positivity
  have p2 : 0 < 2 ^ (q.depth - b) := by positivity
  have q1 : 2 ^ q.depth = 2 ^ a * 2 ^ (q.depth - a) := by rw [← Nat.pow_add]; congr 1; omega
  have q2 : 2 ^ q.depth = 2 ^ b * 2 ^ (q.depth - b) := by rw [← Nat.pow_add]; congr 1; omega
  refine ⟨by rw [e1, e2]; nlinarith, ?_, by rw [e3, e4]; nlinarith, ?_⟩
  · rw [e2, q1]; exact Nat.mul_le_mul_right _ hx
  · rw [e4, q2]; exact Nat.mul_le_mul_right _ hy

theorem even_cell {s : Surface} {fu fv : ℝ → ℝ} (he : Even s fu fv) (hs : GoodSurface s) (h1 : 0 ≤ s.length1) (h2 : 0 ≤ s.length2) {a b : ℕ} {q : Quad}
    (h : Cell a b q) : verOf (evenGrid s) q = fu (s.length1 / 2 ^ a) ∧ horOf (evenGrid s) q = fv (s.length2 / 2 ^ b) := by
  obtain ⟨g1, g2, g3, g4⟩ := cell_bounds h
  obtain ⟨hd, x, y, hx, hy, e1, e2, e3, e4⟩ := h
  have b1 : a ≤ q.depth := by rw [hd]; exact le_max_left _ _
  have b2 : b ≤ q.depth := by rw [hd]; exact le_max_right _ _
  have w1 := cell_width h1 (x := x) b1
  have w2 := cell_width h2 (x := y) b2
  rw [← e1, ← e2] at w1
  rw [← e3, ← e4] at w2
  unfold verOf horOf
  rw [even_i he hs h1 h2 (by omega) (by omega) (by omega), even_i he hs h1 h2 (by omega) (by omega) (by omega),
    even_j he hs h1 h2 (by omega) (by omega) (by omega), even_j he hs h1 h2 (by omega) (by omega) (by omega), w1, w2, max_self, max_self]
  exact ⟨rfl, rfl⟩

theorem even_regular {s : Surface} {fu fv : ℝ → ℝ} (he : Even s fu fv) (hs : GoodSurface s) (h1 : 0 ≤ s.length1) (h2 : 0 ≤ s.length2) (start : ℕ) :
    Regular (evenGrid s) start := by
  have dbl : ∀ d i j, evenGrid s (d + 1) (2 * i) (2 * j) = evenGrid s d i j := by
    intro d i j
    unfold evenGrid
    have : ∀ (l : ℝ) (i : ℕ), l / 2 ^ (d + 1) * ((2 * i : ℕ) : ℝ) = l / 2 ^ d * i := by
      intro l i; push_cast; rw [pow_succ]; field_simp
    rw [this, this]
  have hp : ∀ d : ℕ, 2 ^ (d + 1) = 2 ^ d * 2 := fun d => Nat.pow_succ ..
  have one : ∀ (l : ℝ) (d k : ℕ), l / 2 ^ d * (((k + 1 : ℕ)) : ℝ) = l / 2 ^ d * k + l / 2 ^ d := by intro l d k; push_cast; ring
  have ab1 : ∀ x y : ℝ, |x - (x + y)| = |y| := by intro x y; rw [sub_add_cancel_left, abs_neg]
  have ab2 : ∀ x y : ℝ, |x + y - x| = |y| := by intro x y; rw [add_sub_cancel_left]
  constructor
  · intro q c hq hst hj hc
    obtain ⟨g1, g2, g3, g4⟩ := hq
    simp only [children, Bool.and_false, Bool.false_eq_true, if_false, if_true, List.mem_cons, List.not_mem_nil, or_false] at hc
    have hQ := hp q.depth
    have hv : ∀ j ≤ 2 ^ (q.depth + 1), Spec.dist (evenGrid s (q.depth + 1) (2 * q.i0) j) (evenGrid s (q.depth + 1) (2 * q.i1) j)
        = Spec.dist (evenGrid s q.depth q.i0 q.j0) (evenGrid s q.depth q.i1 q.j0) := by
      intro j hj'
      rw [← dbl q.depth q.i0 q.j0, ← dbl q.depth q.i1 q.j0, even_i he hs h1 h2 (by omega) (by omega) (by omega),
        even_i he hs h1 h2 (by omega) (by omega) (by omega)]
    have hh : ∀ i ≤ 2 ^ (q.depth + 1), ∀ j, j + 1 ≤ 2 ^ (q.depth + 1) →
        Spec.dist (evenGrid s (q.depth + 1) i j) (evenGrid s (q.depth + 1) i (j + 1)) = fv |s.length2 / 2 ^ (q.depth + 1)| := by
      intro i hi j hj'
      rw [even_j he hs h1 h2 hi (by omega) hj', one, ab1]
    have hbig : ∀ i ≤ 2 ^ q.depth, Spec.dist (evenGrid s q.depth i q.j0) (evenGrid s q.depth i q.j1) ≤ 2 * fv |s.length2 / 2 ^ (q.depth + 1)| := by
      intro i hi
      rw [hj, ← dbl q.depth i q.j0, ← dbl q.depth i (q.j0 + 1)]
      refine (dist_triangle' _ (evenGrid s (q.depth + 1) (2 * i) (2 * q.j0 + 1)) _).trans ?_
      rw [hh _ (by omega) _ (by omega), show 2 * (q.j0 + 1) = (2 * q.j0 + 1) + 1 by ring, hh _ (by omega) _ (by omega)]
      linarith
    have hn : 0 ≤ fv |s.length2 / 2 ^ (q.depth + 1)| := by
      rw [← hh 0 (by omega) 0 (by omega)]; exact Real.sqrt_nonneg _
    have hH : horOf (evenGrid s) q ≤ 2 * fv |s.length2 / 2 ^ (q.depth + 1)| := max_le (hbig _ (by omega)) (hbig _ (by omega))
    rcases hc with rfl | rfl
    · refine ⟨?_, ?_⟩
      · simp only [verOf]
        rw [hv _ (by omega), hv _ (by omega), max_self]
        exact le_max_left _ _
      · have : horOf (evenGrid s) ⟨q.depth + 1, 2 * q.i0, 2 * q.i1, 2 * q.j0, 2 * q.j0 + 1⟩ = fv |s.length2 / 2 ^ (q.depth + 1)| := by
          simp only [horOf]
          rw [hh _ (by omega) _ (by omega), hh _ (by omega) _ (by omega), max_self]
        rw [this]; linarith
    · refine ⟨?_, ?_⟩
      · simp only [verOf]
        rw [hv _ (by omega), hv _ (by omega), max_self]
        exact le_max_left _ _
      · have : horOf (evenGrid s) ⟨q.depth + 1, 2 * q.i0, 2 * q.i1, 2 * q.j0 + 1, 2 * q.j0 + 2⟩ = fv |s.length2 / 2 ^ (q.depth + 1)| := by
          simp only [horOf]
          rw [show 2 * q.j0 + 2 = (2 * q.j0 + 1) + 1 by ring, hh _ (by omega) _ (by omega), hh _ (by omega) _ (by omega), max_self]
        rw [this]; linarith
  · intro q c hq hst hi hc
    obtain ⟨g1, g2, g3, g4⟩ := hq
    simp only [children, Bool.false_and, Bool.false_eq_true, if_false, if_true, List.mem_cons, List.not_mem_nil, or_false] at hc
    have hQ := hp q.depth
    have hv : ∀ i ≤ 2 ^ (q.depth + 1), Spec.dist (evenGrid s (q.depth + 1) i (2 * q.j0)) (evenGrid s (q.depth + 1) i (2 * q.j1))
        = Spec.dist (evenGrid s q.depth q.i0 q.j0) (evenGrid s q.depth q.i0 q.j1) := by
      intro i hi'
      rw [← dbl q.depth q.i0 q.j0, ← dbl q.depth q.i0 q.j1, even_j he hs h1 h2 (by omega) (by omega) (by omega),
        even_j he hs h1 h2 (by omega) (by omega) (by omega)]
    have hh : ∀ j ≤ 2 ^ (q.depth + 1), ∀ i, i + 1 ≤ 2 ^ (q.depth + 1) →
        Spec.dist (evenGrid s (q.depth + 1) i j) (evenGrid s (q.depth + 1) (i + 1) j) = fu |s.length1 / 2 ^ (q.depth + 1)| := by
      intro j hj i hi'
      rw [even_i he hs h1 h2 (by omega) hi' hj, one, ab1]
    have hbig : ∀ j ≤ 2 ^ q.depth, Spec.dist (evenGrid s q.depth q.i0 j) (evenGrid s q.depth q.i1 j) ≤ 2 * fu |s.length1 / 2 ^ (q.depth + 1)| := by
      intro j hj
      rw [hi, ← dbl q.depth q.i0 j, ← dbl q.depth (q.i0 + 1) j]
      refine (dist_triangle' _ (evenGrid s (q.depth + 1) (2 * q.i0 + 1) (2 * j)) _).trans ?_
      rw [hh _ (by omega) _ (by omega), show 2 * (q.i0 + 1) = (2 * q.i0 + 1) + 1 by ring, hh _ (by omega) _ (by omega)]
      linarith
    have hn : 0 ≤ fu |s.length1 / 2 ^ (q.depth + 1)| := by
      rw [← hh 0 (by omega) 0 (by omega)]; exact Real.sqrt_nonneg _
    have hH : verOf (evenGrid s) q ≤ 2 * fu |s.length1 / 2 ^ (q.depth + 1)| := max_le (hbig _ (by omega)) (hbig _ (by omega))
    rcases hc with rfl | rfl
    · refine ⟨?_, ?_⟩
      · simp only [horOf]
        rw [hv _ (by omega), hv _ (by omega), max_self]
        exact le_max_left _ _
      · have : verOf (evenGrid s) ⟨q.depth + 1, 2 * q.i0, 2 * q.i0 + 1, 2 * q.j0, 2 * q.j1⟩ = fu |s.length1 / 2 ^ (q.depth + 1)| := by
          simp only [verOf]
          rw [hh _ (by omega) _ (by omega), hh _ (by omega) _ (by omega), max_self]
        rw [this]; linarith
    · refine ⟨?_, ?_⟩
      · simp only [horOf]
        rw [hv _ (by omega), hv _ (by omega), max_self]
        exact le_max_left _ _
      · have : verOf (evenGrid s) ⟨q.depth + 1, 2 * q.i0 + 1, 2 * q.i0 + 2, 2 * q.j0, 2 * q.j1⟩ = fu |s.length1 / 2 ^ (q.depth + 1)| := by
          simp only [verOf]
          rw [show 2 * q.i0 + 2 = (2 * q.i0 + 1) + 1 by ring, hh _ (by omega) _ (by omega), hh _ (by omega) _ (by omega), max_self]
        rw [this]; linarith

open Classical in
/-- what is decided for the cells of a grid -/
noncomputable def evenDecision (s : Surface) (fu fv : ℝ → ℝ) (ms : ℝ) (a b : ℕ) : Bool × Bool :=
  (decide (fv (s.length2 / 2 ^ b) > ms ∨ (fv (s.length2 / 2 ^ b) > 2.5 * fu (s.length1 / 2 ^ a) ∧ fv (s.length2 / 2 ^ b) > 1 / 8 * ms)),
   decide (fu (s.length1 / 2 ^ a) > ms ∨ (fu (s.length1 / 2 ^ a) > 2.5 * fv (s.length2 / 2 ^ b) ∧ fu (s.length1 / 2 ^ a) > 1 / 8 * ms)))

theorem even_uniform {s : Surface} {fu fv : ℝ → ℝ} (he : Even s fu fv) (hs : GoodSurface s) (h1 : 0 ≤ s.length1) (h2 : 0 ≤ s.length2) (ms : ℝ) (start : ℕ) :
    ∃ Ok, Uniform (decision s.gridPoint (splitReal (fun _ => ms))) Ok (evenDecision s fu fv ms) start := by
  have hg : ∀ d i j, i ≤ 2 ^ d → j ≤ 2 ^ d → s.gridPoint d i j = some (evenGrid s d i j) := fun d i j hi hj => evenGrid_some hs h1 h2 hi hj
  refine ⟨_, regular_noTurn hg (even_regular he hs h1 h2 start) ms, ?_, ?_⟩
  · intro n q hq
    obtain ⟨h, v, e, e1, e2⟩ := decision_real hg (fun _ => ms) (cell_bounds hq)
    obtain ⟨c1, c2⟩ := even_cell he hs h1 h2 hq
    rw [c1, c2] at e1 e2
    rw [e, Option.some.injEq]
    generalize (chain (evenDecision s fu fv ms) start n).1 = a at e1 e2
    generalize (chain (evenDecision s fu fv ms) start n).2 = b at e1 e2
    unfold evenDecision
    refine Prod.ext ?_ ?_
    · simp only
      rw [Bool.eq_iff_iff, e1]
      exact decide_eq_true_iff.symm
    · simp only
      rw [Bool.eq_iff_iff, e2]
      exact decide_eq_true_iff.symm
  · intro q hq
    obtain ⟨g1, g2⟩ := startQuads_inGrid hq
    refine ⟨g1, by omega, Or.inl ?_, Or.inl ?_⟩ <;>
    · unfold startQuads at hq
      obtain ⟨i, _, hq⟩ := List.mem_flatMap.1 hq
      obtain ⟨j, _, rfl⟩ := List.mem_map.1 hq
      rfl

theorem single_section {s : Surface} (h1 : s.breaks1 = []) (h2 : s.breaks2 = []) : s.sections.map Surface.gridPoint = [s.gridPoint] := by
  rw [sections_single2 h2, h1]
  have : Surface.pairs (0 :: [] ++ [s.length1]) = [(0, s.length1)] := rfl
  rw [this]
  simp only [List.map_cons, List.map_nil, sub_zero, zero_add]
  rfl

/-- The triangles of the mesh, as halves of the cells of a grid. -/
theorem even_mesh {s : Surface} (hs : GoodSurface s) (h1 : 0 < s.length1) (h2 : 0 < s.length2) (hb1 : s.breaks1 = []) (hb2 : s.breaks2 = [])
    {fu fv : ℝ → ℝ} (he : Even s fu fv) {ms : ℝ} {fuel : ℕ} {name : Option String} {mesh : Mesh V3} (h : s.rawMesh (fun _ => ms) fuel name = some mesh) :
    ∃ (A B : ℕ) (idx : ℕ → ℕ → Option ℕ),
      (∀ x y k, idx x y = some k → ∃ p, s.func (x * (s.length1 / 2 ^ A)) (y * (s.length2 / 2 ^ B)) = some p ∧ mesh.points[k]? = some p) ∧
      ∀ t ∈ mesh.triangles, ∃ x y, x < 2 ^ A ∧ y < 2 ^ B ∧
        (t.map some = [idx x y, idx x (y + 1), idx (x + 1) (y + 1)] ∨ t.map some = [idx x y, idx (x + 1) (y + 1), idx (x + 1) y]) := by
  obtain ⟨Ok, hu⟩ := even_uniform he hs h1.le h2.le ms 2
  unfold Surface.rawMesh at h
  rw [single_section hb1 hb2, hb1, hb2] at h
  obtain ⟨A, B, N, idx, hA, hB, hp, ht⟩ := uniform_mesh (gridPoint_consistent s) hu h
  refine ⟨A, B, idx, fun x y k hk => ?_, ht⟩
  obtain ⟨p, e1, e2⟩ := hp x y k hk
  refine ⟨p, ?_, e2⟩
  rw [← e1]
  unfold Surface.gridPoint
  have e : ∀ (l : ℝ) (C z : ℕ), C ≤ N → l / 2 ^ N * ((z * 2 ^ (N - C) : ℕ) : ℝ) = z * (l / 2 ^ C) := by
    intro l C z hC
    have e : (2 : ℝ) ^ N = 2 ^ C * 2 ^ (N - C) := by rw [← pow_add]; congr 1; omega
    push_cast
    rw [e]
    field_simp
  rw [e _ _ _ hA, e _ _ _ hB]

/-- no node of a grid is inside a side or a diagonal of a cell -/
theorem lattice_between {l m : ℝ} (hl : 0 < l) (hm : 0 < m) {x y x' y' : ℕ} {a b c d : ℕ} (ha : a ≤ 1) (hb : b ≤ 1) (hc : c ≤ 1) (hd : d ≤ 1) :
    ¬ Between2 ((x' : ℝ) * l, (y' : ℝ) * m) (((x + a : ℕ) : ℝ) * l, ((y + b : ℕ) : ℝ) * m) (((x + c : ℕ) : ℝ) * l, ((y + d : ℕ) : ℝ) * m) := by
  rintro ⟨n1, n2, t, t0, t1, e1, e2⟩
  simp only at e1 e2
  have f1 : (x' : ℝ) = (x + a : ℕ) + t * ((x + c : ℕ) - (x + a : ℕ)) := by
    have : (x' : ℝ) * l = (((x + a : ℕ) : ℝ) + t * ((x + c : ℕ) - (x + a : ℕ))) * l := by rw [e1]; ring
    exact mul_right_cancel₀ hl.ne' this
  have f2 : (y' : ℝ) = (y + b : ℕ) + t * ((y + d : ℕ) - (y + b : ℕ)) := by
    have : (y' : ℝ) * m = (((y + b : ℕ) : ℝ) + t * ((y + d : ℕ) - (y + b : ℕ))) * m := by rw [e2]; ring
    exact mul_right_cancel₀ hm.ne' this
  have n1' : ¬ (x' = x + a ∧ y' = y + b) := by rintro ⟨rfl, rfl⟩; exact n1 rfl
  have n2' : ¬ (x' = x + c ∧ y' = y + d) := by rintro ⟨rfl, rfl⟩; exact n2 rfl
  have int : ∀ (z w p q : ℕ), p ≤ 1 → q ≤ 1 → (z : ℝ) = (w + p : ℕ) + t * ((w + q : ℕ) - (w + p : ℕ)) → (p = q ∧ z = w + p) ∨ (t = 0 ∧ z = w + p) ∨ (t = 1 ∧ z = w + q) := by
    intro z w p q hp hq h
    have key : ∀ (z w : ℕ), (z : ℝ) = w + t → (t = 0 ∧ z = w) ∨ (t = 1 ∧ z = w + 1) := by
      intro z w h
      rcases Nat.lt_trichotomy z w with h' | h' | h'
      · exfalso
        have : (z : ℝ) + 1 ≤ w := by exact_mod_cast h'
        linarith
      · left; subst h'; exact ⟨by linarith, rfl⟩
      · right
        have h3 : (w : ℝ) + 1 ≤ z := by exact_mod_cast h'
        have ht : t = 1 := by linarith
        refine ⟨ht, ?_⟩
        have : (z : ℝ) = ((w + 1 : ℕ) : ℝ) := by push_cast; linarith
        exact_mod_cast this
    have hp' : p = 0 ∨ p = 1 := by omega
    have hq' : q = 0 ∨ q = 1 := by omega
    rcases hp' with rfl | rfl <;> rcases hq' with rfl | rfl
    · left
      refine ⟨rfl, ?_⟩
      have : (z : ℝ) = ((w + 0 : ℕ) : ℝ) := by rw [h]; ring
      exact_mod_cast this
    · right
      push_cast at h
      rcases key z w (by linarith) with ⟨h1, h2⟩ | ⟨h1, h2⟩
      · exact Or.inl ⟨h1, h2⟩
      · exact Or.inr ⟨h1, h2⟩
    · right
      push_cast at h
      have hz : (w : ℝ) = z + t - 1 := by linarith
      have : (((w + 1 : ℕ)) : ℝ) = z + t := by push_cast; linarith
      rcases key (w + 1) z this with ⟨h1, h2⟩ | ⟨h1, h2⟩
      · exact Or.inl ⟨h1, by omega⟩
      · exact Or.inr ⟨h1, by omega⟩
    · left
      refine ⟨rfl, ?_⟩
      have : (z : ℝ) = ((w + 1 : ℕ) : ℝ) := by rw [h]; ring
      exact_mod_cast this
  rcases int x' x a c ha hc f1 with ⟨i1, i2⟩ | ⟨i1, i2⟩ | ⟨i1, i2⟩ <;> rcases int y' y b d hb hd f2 with ⟨k1, k2⟩ | ⟨k1, k2⟩ | ⟨k1, k2⟩
  · exact n1' ⟨i2, k2⟩
  · exact n1' ⟨i2, k2⟩
  · exact n2' ⟨by omega, k2⟩
  · exact n1' ⟨i2, k2⟩
  · exact n1' ⟨i2, k2⟩
  · rw [i1] at k1; norm_num at k1
  · exact n2' ⟨i2, by omega⟩
  · rw [i1] at k1; norm_num at k1
  · exact n2' ⟨i2, k2⟩

theorem exists_matches {α β : Type} {R : α → β → Prop} : ∀ (l : List α), (∀ a ∈ l, ∃ b, R a b) → ∃ l', Matches R l l'
  | [], _ => ⟨[], rfl, fun k a b h => by simp at h⟩
  | a :: l, h => by
    obtain ⟨b, hb⟩ := h a List.mem_cons_self
    obtain ⟨l', e, hl⟩ := exists_matches l (fun x hx => h x (List.mem_cons_of_mem _ hx))
    refine ⟨b :: l', by simp [e], fun k x y hx hy => ?_⟩
    cases k with
    | zero => simp at hx hy; subst hx hy; exact hb
    | succ k => exact hl k x y hx hy

theorem Spec.Matches.mem_right {α β : Type} {R : α → β → Prop} {l : List α} {l' : List β} (h : Matches R l l') {b : β} (hb : b ∈ l') : ∃ a ∈ l, R a b := by
  obtain ⟨k, hk⟩ := List.getElem?_of_mem hb
  have hlt := (List.getElem?_eq_some_iff.1 hk).1
  have : k < l.length := by rw [h.1]; exact hlt
  exact ⟨_, List.getElem_mem this, h.2 k _ b (List.getElem?_eq_getElem this) hk⟩

/-- **C101**, partial: the mesh has no cracks. For a surface without breakpoints on which steps of the same length in a parameter are steps of the same
length in space (a flat rectangle or parallelogram, the side of a cylinder) and a constant mesh size: the triangles of the mesh are, in the parameters,
triangles of which no corner lies inside an edge of another one, and where two triangles have a corner in common they use the same point of the
mesh. What is missing: other surfaces, varying mesh sizes, and breakpoints, for which it is false (`C101_refuted`). -/
theorem C101_partial {s : Surface} (hs : GoodSurface s) (h1 : 0 < s.length1) (h2 : 0 < s.length2) (hb1 : s.breaks1 = []) (hb2 : s.breaks2 = [])
    {fu fv : ℝ → ℝ} (he : Even s fu fv) {ms : ℝ} {fuel : ℕ} {name : Option String} {mesh : Mesh V3} (h : s.rawMesh (fun _ => ms) fuel name = some mesh) :
    ∃ tris : List Tri2, Matches (MeshTriangle s mesh) mesh.triangles tris ∧ Conforming2 tris ∧
      (∀ T ∈ tris, ∀ c ∈ cornersOf T, 0 ≤ c.1 ∧ c.1 ≤ s.length1 ∧ 0 ≤ c.2 ∧ c.2 ≤ s.length2) ∧
      ∀ (k k' i i' : ℕ) t t' T T' c, mesh.triangles[k]? = some t → mesh.triangles[k']? = some t' → tris[k]? = some T → tris[k']? = some T' →
        (cornersOf T)[i]? = some c → (cornersOf T')[i']? = some c → t[i]? = t'[i']? := by
  obtain ⟨A, B, idx, hp, ht⟩ := even_mesh hs h1 h2 hb1 hb2 he h
  set l := s.length1 / 2 ^ A with hl
  set m := s.length2 / 2 ^ B with hm
  have l0 : 0 < l := by positivity
  have m0 : 0 < m := by positivity
  set pos : ℕ × ℕ → ℝ × ℝ := fun n => ((n.1 : ℝ) * l, (n.2 : ℝ) * m) with hpos
  have pinj : ∀ n n', pos n = pos n' → n = n' := by
    intro n n' hn
    simp only [hpos, Prod.mk.injEq] at hn
    have e1 := mul_right_cancel₀ l0.ne' hn.1
    have e2 := mul_right_cancel₀ m0.ne' hn.2
    exact Prod.ext (by exact_mod_cast e1) (by exact_mod_cast e2)
  obtain ⟨tris, hM⟩ := exists_matches (R := fun (t : List ℕ) (T : Tri2) => ∃ (ns : List (ℕ × ℕ)) (x y : ℕ), x < 2 ^ A ∧ y < 2 ^ B ∧
      t.map some = ns.map (fun n => idx n.1 n.2) ∧ cornersOf T = ns.map pos ∧
      ∀ n ∈ ns, ∃ a b, a ≤ 1 ∧ b ≤ 1 ∧ n = (x + a, y + b)) mesh.triangles (fun t htm => by
    obtain ⟨x, y, hx, hy, ht | ht⟩ := ht t htm
    · refine ⟨(pos (x, y), pos (x, y + 1), pos (x + 1, y + 1)), [(x, y), (x, y + 1), (x + 1, y + 1)], x, y, hx, hy, ht, rfl, ?_⟩
      intro n hn
      simp only [List.mem_cons, List.not_mem_nil, or_false] at hn
      rcases hn with rfl | rfl | rfl
      · exact ⟨0, 0, by omega, by omega, rfl⟩
      · exact ⟨0, 1, by omega, by omega, rfl⟩
      · exact ⟨1, 1, by omega, by omega, rfl⟩
    · refine ⟨(pos (x, y), pos (x + 1, y + 1), pos (x + 1, y)), [(x, y), (x + 1, y + 1), (x + 1, y)], x, y, hx, hy, ht, rfl, ?_⟩
      intro n hn
      simp only [List.mem_cons, List.not_mem_nil, or_false] at hn
      rcases hn with rfl | rfl | rfl
      · exact ⟨0, 0, by omega, by omega, rfl⟩
      · exact ⟨1, 1, by omega, by omega, rfl⟩
      · exact ⟨1, 0, by omega, by omega, rfl⟩)
  have hrange : ∀ (L : ℝ) (C x a : ℕ), 0 < L → x < 2 ^ C → a ≤ 1 → 0 ≤ ((x + a : ℕ) : ℝ) * (L / 2 ^ C) ∧ ((x + a : ℕ) : ℝ) * (L / 2 ^ C) ≤ L := by
    intro L C x a hL hx ha
    have := grid_range hL.le (d := C) (i := x + a) (by omega)
    rw [mul_comm]
    exact this
  have hcorner : ∀ T ∈ tris, ∃ x y : ℕ, x < 2 ^ A ∧ y < 2 ^ B ∧ ∀ c ∈ cornersOf T, ∃ a b, a ≤ 1 ∧ b ≤ 1 ∧ c = pos (x + a, y + b) := by
    intro T hT
    obtain ⟨t, _, ns, x, y, hx, hy, _, e, hn⟩ := hM.mem_right hT
    refine ⟨x, y, hx, hy, fun c hc => ?_⟩
    rw [e] at hc
    obtain ⟨n, hn', rfl⟩ := List.mem_map.1 hc
    obtain ⟨a, b, ha, hb, rfl⟩ := hn n hn'
    exact ⟨a, b, ha, hb, rfl⟩
  have hin : ∀ T ∈ tris, ∀ c ∈ cornersOf T, 0 ≤ c.1 ∧ c.1 ≤ s.length1 ∧ 0 ≤ c.2 ∧ c.2 ≤ s.length2 := by
    intro T hT c hc
    obtain ⟨x, y, hx, hy, hcT⟩ := hcorner T hT
    obtain ⟨a, b, ha, hb, rfl⟩ := hcT c hc
    exact ⟨(hrange _ A x a h1 hx ha).1, (hrange _ A x a h1 hx ha).2, (hrange _ B y b h2 hy hb).1, (hrange _ B y b h2 hy hb).2⟩
  refine ⟨tris, ⟨hM.1, fun k t T hk hk' => ?_⟩, ?_, hin, ?_⟩
  · obtain ⟨ns, x, y, _, _, e1, e2, _⟩ := hM.2 k t T hk hk'
    have hlen : t.length = 3 := by
      have := congrArg List.length e1
      have h' := congrArg List.length e2
      simp only [List.length_map, cornersOf, List.length_cons, List.length_nil] at this h'
      omega
    have hget : ∀ (i : ℕ) (c : ℝ × ℝ), (cornersOf T)[i]? = some c → ∃ j p, t[i]? = some j ∧ mesh.points[j]? = some p ∧ s.func c.1 c.2 = some p := by
      intro i c hc
      rw [e2, List.getElem?_map] at hc
      obtain ⟨n, hn, rfl⟩ := Option.map_eq_some_iff.1 hc
      have h3 := congrArg (fun l => l[i]?) e1
      simp only [List.getElem?_map, hn, Option.map_some] at h3
      obtain ⟨j, hj, hj'⟩ := Option.map_eq_some_iff.1 h3
      obtain ⟨p, p1, p2⟩ := hp _ _ j hj'.symm
      exact ⟨j, p, hj, p2, p1⟩
    exact ⟨hget 0 _ rfl, hget 1 _ rfl, hget 2 _ rfl, hlen, fun p hp' => hin T (List.mem_of_getElem? hk') p hp'⟩
  · intro T hT T' hT' q hq r hr p hp'
    obtain ⟨x, y, _, _, hc⟩ := hcorner T hT
    obtain ⟨x', y', _, _, hc'⟩ := hcorner T' hT'
    obtain ⟨a, b, ha, hb, rfl⟩ := hc q hq
    obtain ⟨c, d, hc1, hd, rfl⟩ := hc r hr
    obtain ⟨e, f, _, _, rfl⟩ := hc' p hp'
    exact lattice_between l0 m0 ha hb hc1 hd
  · intro k k' i i' t t' T T' c hk hk' hT hT' hi hi'
    obtain ⟨ns, _, _, _, _, e1, e2, _⟩ := hM.2 k t T hk hT
    obtain ⟨ns', _, _, _, _, e1', e2', _⟩ := hM.2 k' t' T' hk' hT'
    rw [e2, List.getElem?_map] at hi
    rw [e2', List.getElem?_map] at hi'
    obtain ⟨n, hn, rfl⟩ := Option.map_eq_some_iff.1 hi
    obtain ⟨n', hn', e⟩ := Option.map_eq_some_iff.1 hi'
    have := pinj _ _ e
    subst this
    have h3 := congrArg (fun l => l[i]?) e1
    have h4 := congrArg (fun l => l[i']?) e1'
    simp only [List.getElem?_map, hn, hn', Option.map_some] at h3 h4
    exact Option.map_injective (Option.some_injective _) (h3.trans h4.symm)

/-- A flat surface is even. -/
theorem flat_even {s : Surface} {a b c : V3} (hf : ∀ u v, s.func u v = some (a + u * b + v * c)) :
    Even s (fun x => x * V3.norm b) (fun x => x * V3.norm c) := by
  constructor
  · intro u u' v p p' _ _ _ _ _ _ e1 e2
    rw [hf] at e1 e2
    cases e1; cases e2
    rw [flat_dist_i]
  · intro u v v' p p' _ _ _ _ _ _ e1 e2
    rw [hf] at e1 e2
    cases e1; cases e2
    rw [flat_dist_j]

/-- **C101** for flat surfaces, partial: the triangles in space of the mesh of a rectangle or a parallelogram have no cracks. -/
theorem C101_flat_partial {s : Surface} {a b c : V3} (hf : ∀ u v, s.func u v = some (a + u * b + v * c)) (hbc : V3.cross b c ≠ 0)
    (h1 : 0 < s.length1) (h2 : 0 < s.length2) (hb1 : s.breaks1 = []) (hb2 : s.breaks2 = [])
    {ms : ℝ} {fuel : ℕ} {name : Option String} {mesh : Mesh V3} (h : s.rawMesh (fun _ => ms) fuel name = some mesh) :
    Conforming3 (triShapes mesh) := by
  have hs : GoodSurface s := ⟨by simp [GoodBreaks, hb1, h1.le], by simp [GoodBreaks, hb2, h2.le], fun u v _ _ _ _ => by rw [hf]; rfl⟩
  obtain ⟨tris, hM, hconf, -, -⟩ := C101_partial hs h1 h2 hb1 hb2 (flat_even hf) h
  have key : ∀ T ∈ triShapes mesh, ∃ T2 ∈ tris, ∀ p ∈ T, ∃ c2 ∈ cornersOf T2, p = a + (c2.1 : ℝ) * b + (c2.2 : ℝ) * c := by
    intro T hT
    obtain ⟨t, ht, rfl⟩ := List.mem_map.1 hT
    obtain ⟨k, hk⟩ := List.getElem?_of_mem ht
    have hlt : k < tris.length := by rw [← hM.1]; exact (List.getElem?_eq_some_iff.1 hk).1
    refine ⟨tris[k], List.getElem_mem hlt, fun p hp => ?_⟩
    obtain ⟨⟨i, pi, i1, i2, i3⟩, ⟨j, pj, j1, j2, j3⟩, ⟨l, pl, l1, l2, l3⟩, hlen⟩ := hM.2 k t _ hk (List.getElem?_eq_getElem hlt)
    unfold coords at hp
    obtain ⟨n, hn, hp⟩ := List.mem_filterMap.1 hp
    obtain ⟨w, hw⟩ := List.getElem?_of_mem hn
    have hw3 : w < 3 := by rw [← hlen]; exact (List.getElem?_eq_some_iff.1 hw).1
    rw [hf] at i3 j3 l3
    match w, hw3 with
    | 0, _ => rw [i1] at hw; cases hw; rw [i2] at hp; cases hp; exact ⟨_, by simp [cornersOf], (Option.some.inj i3).symm⟩
    | 1, _ => rw [j1] at hw; cases hw; rw [j2] at hp; cases hp; exact ⟨_, by simp [cornersOf], (Option.some.inj j3).symm⟩
    | 2, _ => rw [l1] at hw; cases hw; rw [l2] at hp; cases hp; exact ⟨_, by simp [cornersOf], (Option.some.inj l3).symm⟩
  intro T hT T' hT' q hq r hr p hp hbet
  obtain ⟨T2, hT2, hc⟩ := key T hT
  obtain ⟨T2', hT2', hc'⟩ := key T' hT'
  obtain ⟨q2, hq2, rfl⟩ := hc q hq
  obtain ⟨r2, hr2, rfl⟩ := hc r hr
  obtain ⟨p2, hp2, rfl⟩ := hc' p hp
  refine hconf T2 hT2 T2' hT2' q2 hq2 r2 hr2 p2 hp2 ?_
  obtain ⟨n1, n2, t, t0, t1, e⟩ := hbet
  refine ⟨fun h => n1 (by rw [h]), fun h => n2 (by rw [h]), t, t0, t1, ?_⟩
  -- the two coordinates are determined by the point
  have hz : (p2.1 - (q2.1 + t * (r2.1 - q2.1)) : ℝ) * b + (p2.2 - (q2.2 + t * (r2.2 - q2.2)) : ℝ) * c = (0 : V3) := by
    have ex := congrArg V3.x e
    have ey := congrArg V3.y e
    have ez := congrArg V3.z e
    simp at ex ey ez
    ext <;> simp <;> linarith
  have hx := congrArg V3.x hz
  have hy := congrArg V3.y hz
  have hz' := congrArg V3.z hz
  simp only [V3.add_x, V3.add_y, V3.add_z, V3.smul_x, V3.smul_y, V3.smul_z, V3.zero_x, V3.zero_y, V3.zero_z] at hx hy hz'
  have hα : ∀ α β : ℝ, α * b.x + β * c.x = 0 → α * b.y + β * c.y = 0 → α * b.z + β * c.z = 0 → α = 0 ∧ β = 0 := by
    intro α β g1 g2 g3
    constructor
    · by_contra hne
      apply hbc
      ext <;> simp only [V3.cross, V3.zero_x, V3.zero_y, V3.zero_z]
      · exact (mul_eq_zero.1 (show α * (b.y * c.z - b.z * c.y) = 0 by linear_combination c.z * g2 - c.y * g3)).resolve_left hne
      · exact (mul_eq_zero.1 (show α * (b.z * c.x - b.x * c.z) = 0 by linear_combination c.x * g3 - c.z * g1)).resolve_left hne
      · exact (mul_eq_zero.1 (show α * (b.x * c.y - b.y * c.x) = 0 by linear_combination c.y * g1 - c.x * g2)).resolve_left hne
    · by_contra hne
      apply hbc
      ext <;> simp only [V3.cross, V3.zero_x, V3.zero_y, V3.zero_z]
      · exact (mul_eq_zero.1 (show β * (b.y * c.z - b.z * c.y) = 0 by linear_combination b.y * g3 - b.z * g2)).resolve_left hne
      · exact (mul_eq_zero.1 (show β * (b.z * c.x - b.x * c.z) = 0 by linear_combination b.z * g1 - b.x * g3)).resolve_left hne
      · exact (mul_eq_zero.1 (show β * (b.x * c.y - b.y * c.x) = 0 by linear_combination b.x * g2 - b.y * g1)).resolve_left hne
  obtain ⟨k1, k2⟩ := hα _ _ hx hy hz'
  exact ⟨by linarith, by linarith⟩

end Traceon
