import Verif.Props.Ruled5

/-!
# C18 and C67 are false for contours that bulge

A part of a torus: `Path.circle_xz(0, 1, 1, angle=4π/3).revolve_x(angle=2π/3)`, meshed with the constant mesh size 0.98.
-/
namespace Traceon
open Spec SMesh

/-- what holds for the quads that are split, holds for what is left of them -/
theorem refine_closed {dec : Quad → Option (Bool × Bool)} {P Q : Quad → Prop}
    (hstep : ∀ q h v, P q → dec q = some (h, v) → (h || v) = true → ∀ c ∈ children q h v, P c)
    (hend : ∀ q, P q → dec q = some (false, false) → Q q) :
    ∀ (fuel : ℕ) (stack quads out : List Quad), (∀ q ∈ stack, P q) → (∀ q ∈ quads, Q q) → refine dec fuel stack quads = some out → ∀ q ∈ out, Q q
  | _, [], quads, out, _, hq, h => by
    have : quads = out := by unfold refine at h; simpa using h
    rw [← this]; exact hq
  | 0, q :: stack, quads, out, _, _, h => by simp [refine] at h
  | fuel + 1, q :: stack, quads, out, hs, hq, h => by
    rw [refine] at h
    obtain ⟨⟨a, b⟩, hd, h⟩ := Option.bind_eq_some_iff.1 h
    simp only at h
    by_cases hab : (a || b) = true
    · rw [if_pos hab] at h
      refine refine_closed hstep hend fuel _ quads out (fun c hc => ?_) hq h
      rcases List.mem_append.1 hc with hc | hc
      · exact hstep q a b (hs q (by simp)) hd hab c (List.mem_reverse.1 hc)
      · exact hs c (by simp [hc])
    · rw [if_neg hab] at h
      have ha : a = false ∧ b = false := by cases a <;> cases b <;> simp_all
      obtain ⟨rfl, rfl⟩ := ha
      refine refine_closed hstep hend fuel stack _ out (fun c hc => hs c (by simp [hc])) (fun c hc => ?_) h
      rcases List.mem_append.1 hc with hc | hc
      · exact hq c hc
      · rw [List.mem_singleton.1 hc]; exact hend q (hs q (by simp)) hd

theorem refineAll_closed {dec : Quad → Option (Bool × Bool)} {P Q : Quad → Prop}
    (hstep : ∀ q h v, P q → dec q = some (h, v) → (h || v) = true → ∀ c ∈ children q h v, P c)
    (hend : ∀ q, P q → dec q = some (false, false) → Q q) {fuel start : ℕ} (hs : ∀ q ∈ startQuads start, P q) {out : List Quad}
    (h : refineAll dec fuel start = some out) : ∀ q ∈ out, Q q := by
  have : ∀ (qs acc out : List Quad), (∀ q ∈ qs, P q) → (∀ q ∈ acc, Q q) → qs.foldlM (fun acc q => refine dec fuel [q] acc) acc = some out → ∀ q ∈ out, Q q := by
    intro qs
    induction qs with
    | nil => intro acc out _ ha h; simp only [List.foldlM_nil, Option.pure_def, Option.some.injEq] at h; rw [← h]; exact ha
    | cons q qs ih =>
      intro acc out hp ha h
      rw [List.foldlM_cons] at h
      obtain ⟨acc', h1, h2⟩ := Option.bind_eq_some_iff.1 h
      exact ih acc' out (fun c hc => hp c (by simp [hc])) (refine_closed hstep hend fuel [q] acc acc' (fun c hc => hp c (by simp at hc; simp [hc])) ha h1) h2
  exact this _ [] out hs (by simp) h

/-- the quad does not reach into the part `1/4 < x < 1/2`, `1/8 < y < 1/4` of the parameter square -/
def Clear (q : Quad) : Prop := 4 * q.i1 ≤ 2 ^ q.depth ∨ 2 ^ q.depth ≤ 2 * q.i0 ∨ 8 * q.j1 ≤ 2 ^ q.depth ∨ 2 ^ q.depth ≤ 4 * q.j0

theorem clear_children {q c : Quad} {h v : Bool} (hq : Clear q) (hg : q.i0 < q.i1 ∧ q.j0 < q.j1) (hc : c ∈ children q h v) : Clear c ∧ c.i0 < c.i1 ∧ c.j0 < c.j1 := by
  obtain ⟨g1, g2⟩ := hg
  have hp : 2 ^ (q.depth + 1) = 2 ^ q.depth * 2 := Nat.pow_succ ..
  unfold Clear at hq ⊢
  cases h <;> cases v <;>
    simp only [children, Bool.and_false, Bool.and_true, Bool.false_eq_true, if_false, if_true, List.mem_cons, List.not_mem_nil, or_false] at hc
  · rcases hc with rfl | rfl <;> simp only [hp] <;> omega
  · rcases hc with rfl | rfl <;> simp only [hp] <;> omega
  · rcases hc with rfl | rfl | rfl | rfl <;> simp only [hp] <;> omega

/-! ## The surface -/

/-- `Path.circle_xz(0, 1, 1, angle=4π/3).revolve_x(angle=2π/3)` -/
noncomputable def bulge (rAvg : ℝ) : Surface := (Path.circleXZ 0 1 1 (4 * Real.pi / 3)).revolveX rAvg (2 * Real.pi / 3)

/-- the point of the surface at the angle `θ` along the circle and turned over `φ` -/
noncomputable def bulgeAt (θ φ : ℝ) : V3 := ⟨Real.cos θ, -(1 + Real.sin θ) * Real.sin φ, (1 + Real.sin θ) * Real.cos φ⟩

theorem bulge_func {rAvg : ℝ} (hr : 0 < rAvg) (u v : ℝ) :
    (bulge rAvg).func u v = some (bulgeAt u (v / (2 * Real.pi * rAvg) * (2 * Real.pi / 3))) := by
  have hq : (Path.circleXZ 0 1 1 (4 * Real.pi / 3)).func u = some ⟨Real.cos u, 0, 1 + Real.sin u⟩ := by
    simp only [Path.circleXZ, Path.move, Path.mapPoints, safeDiv, one_ne_zero, if_false, Option.map_some, Option.bind_some, Option.some.injEq, div_one]
    ext <;> simp; ring
  unfold bulge
  rw [revolveX_func _ hr.ne' _ _ _ hq]
  congr 1
  ext <;> simp [rotC, bulgeAt] <;> ring

theorem bulge_ver (θ θ' φ : ℝ) : Spec.dist (bulgeAt θ φ) (bulgeAt θ' φ) = Spec.chord 1 (θ - θ') := by
  have h := chord_aux θ θ'
  unfold Spec.dist V3.norm V3.dot Spec.chord
  rw [show (2 * 1 * |Real.sin ((θ - θ') / (2 * 1))| : ℝ) = Real.sqrt ((2 * |Real.sin ((θ - θ') / 2)|) ^ 2) by
    rw [Real.sqrt_sq (by positivity)]; norm_num, ← h]
  congr 1
  simp [bulgeAt]
  linear_combination (Real.sin θ - Real.sin θ') ^ 2 * Real.sin_sq_add_cos_sq φ

theorem bulge_hor {θ : ℝ} (φ φ' : ℝ) : Spec.dist (bulgeAt θ φ) (bulgeAt θ φ') = (1 + Real.sin θ) * Real.sqrt (2 - 2 * Real.cos (φ - φ')) := by
  have h1 : 0 ≤ 1 + Real.sin θ := by linarith [Real.neg_one_le_sin θ]
  rw [show (1 + Real.sin θ) * Real.sqrt (2 - 2 * Real.cos (φ - φ')) = Real.sqrt ((1 + Real.sin θ) ^ 2 * (2 - 2 * Real.cos (φ - φ'))) by
    rw [Real.sqrt_mul (sq_nonneg _), Real.sqrt_sq h1], Real.cos_sub]
  unfold Spec.dist V3.norm V3.dot
  congr 1
  simp [bulgeAt]
  linear_combination (1 + Real.sin θ) ^ 2 * (Real.sin_sq_add_cos_sq φ + Real.sin_sq_add_cos_sq φ')

noncomputable def bulgeGrid (d i j : ℕ) : V3 := bulgeAt (4 * Real.pi / 3 / 2 ^ d * i) (2 * Real.pi / 3 / 2 ^ d * j)

theorem bulge_grid {rAvg : ℝ} (hr : 0 < rAvg) (d i j : ℕ) : (bulge rAvg).gridPoint d i j = some (bulgeGrid d i j) := by
  have hpi := Real.pi_pos
  unfold Surface.gridPoint
  rw [bulge_func hr]
  unfold bulgeGrid
  congr 2
  · simp only [bulge, Path.revolveX, Path.circleXZ, Path.move, Path.mapPoints, mul_one]
  · simp only [bulge, Path.revolveX]
    field_simp

theorem sqrt_bounds : Real.sqrt 3 * Real.sqrt 3 = 3 ∧ 1.732 < Real.sqrt 3 ∧ Real.sqrt 3 < 1.7321 := by
  refine ⟨Real.mul_self_sqrt (by norm_num), Real.lt_sqrt_of_sq_lt (by norm_num), ?_⟩
  rw [Real.sqrt_lt' (by norm_num)]; norm_num

/-- the chord of 30 degrees -/
theorem chord30 : ∃ w, w = Real.sqrt (2 - 2 * Real.cos (Real.pi / 6)) ∧ 0.5175 < w ∧ w < 0.5179 := by
  obtain ⟨h1, h2, h3⟩ := sqrt_bounds
  refine ⟨_, rfl, ?_, ?_⟩
  · rw [Real.cos_pi_div_six]
    exact Real.lt_sqrt_of_sq_lt (by nlinarith)
  · rw [Real.cos_pi_div_six, Real.sqrt_lt' (by norm_num)]
    nlinarith

theorem bulge_hor_at {d i j j' : ℕ} {θ : ℝ} (hθ : 4 * Real.pi / 3 / 2 ^ d * i = θ) (hj : 2 * Real.pi / 3 / 2 ^ d * j' - 2 * Real.pi / 3 / 2 ^ d * j = Real.pi / 6) :
    Spec.dist (bulgeGrid d i j) (bulgeGrid d i j') = (1 + Real.sin θ) * Real.sqrt (2 - 2 * Real.cos (Real.pi / 6)) := by
  unfold bulgeGrid
  rw [bulge_hor, hθ, ← hj, ← Real.cos_neg, neg_sub]

theorem bulge_ver_at {d i i' j : ℕ} {δ : ℝ} (hi : 4 * Real.pi / 3 / 2 ^ d * i - 4 * Real.pi / 3 / 2 ^ d * i' = δ) :
    Spec.dist (bulgeGrid d i j) (bulgeGrid d i' j) = Spec.chord 1 δ := by
  unfold bulgeGrid
  rw [bulge_ver, hi]

theorem sin_third : Real.sin (2 * Real.pi / 3) = Real.sqrt 3 / 2 := by
  rw [show 2 * Real.pi / 3 = Real.pi - Real.pi / 3 by ring, Real.sin_pi_sub, Real.sin_pi_div_three]

/-- the first split of the quad around the bulge: only along the circle -/
theorem bulge_split0 {rAvg : ℝ} (hr : 0 < rAvg) :
    decision (bulge rAvg).gridPoint (splitReal (fun _ => 0.98)) ⟨2, 1, 2, 0, 1⟩ = some (false, true) := by
  obtain ⟨s1, s2, s3⟩ := sqrt_bounds
  obtain ⟨w, hw, w1, w2⟩ := chord30
  obtain ⟨h, v, hd, hh, hv⟩ := decision_real (s := bulge rAvg) (g := bulgeGrid) (fun d i j _ _ => bulge_grid hr d i j) (fun _ => 0.98) (q := ⟨2, 1, 2, 0, 1⟩) ⟨by decide, by decide, by decide, by decide⟩
  have e1 : horOf bulgeGrid ⟨2, 1, 2, 0, 1⟩ = (1 + Real.sqrt 3 / 2) * w := by
    simp only [horOf]
    rw [bulge_hor_at (θ := Real.pi / 3) (by push_cast; ring) (by push_cast; ring), bulge_hor_at (θ := 2 * Real.pi / 3) (by push_cast; ring) (by push_cast; ring),
      sin_third, Real.sin_pi_div_three, max_self, hw]
  have e2 : verOf bulgeGrid ⟨2, 1, 2, 0, 1⟩ = 1 := by
    simp only [verOf]
    rw [bulge_ver_at (δ := -(Real.pi / 3)) (by push_cast; ring), bulge_ver_at (δ := -(Real.pi / 3)) (by push_cast; ring), max_self]
    unfold Spec.chord
    rw [show -(Real.pi / 3) / (2 * 1) = -(Real.pi / 6) by ring, Real.sin_neg, Real.sin_pi_div_six]
    norm_num
  rw [e1, e2] at hh hv
  rw [hd]
  have b1 : (1 + Real.sqrt 3 / 2) * w < 0.98 := by nlinarith
  have hf : h = false := by
    rw [Bool.eq_false_iff]
    intro hc
    rcases hh.1 hc with hc | ⟨hc, -⟩ <;> norm_num at hc <;> linarith
  have hvt : v = true := hv.2 (Or.inl (by norm_num))
  rw [hf, hvt]

theorem bulge_split1 {rAvg : ℝ} (hr : 0 < rAvg) {i : ℕ} (hi : i = 2 ∨ i = 3) :
    decision (bulge rAvg).gridPoint (splitReal (fun _ => 0.98)) ⟨3, i, i + 1, 0, 2⟩ = some (true, false) := by
  obtain ⟨s1, s2, s3⟩ := sqrt_bounds
  obtain ⟨w, hw, w1, w2⟩ := chord30
  obtain ⟨h, v, hd, hh, hv⟩ := decision_real (s := bulge rAvg) (g := bulgeGrid) (fun d i j _ _ => bulge_grid hr d i j) (fun _ => 0.98) (q := ⟨3, i, i + 1, 0, 2⟩)
    ⟨by simp, by simp; omega, by simp, by simp⟩
  have e1 : horOf bulgeGrid ⟨3, i, i + 1, 0, 2⟩ = 2 * w := by
    have hle : (1 + Real.sqrt 3 / 2) * w ≤ (1 + 1) * w := by nlinarith
    rcases hi with rfl | rfl
    · simp only [horOf]
      rw [bulge_hor_at (θ := Real.pi / 3) (by push_cast; ring) (by push_cast; ring), bulge_hor_at (θ := Real.pi / 2) (by push_cast; ring) (by push_cast; ring),
        Real.sin_pi_div_two, Real.sin_pi_div_three, ← hw, max_eq_right hle]
      norm_num
    · simp only [horOf]
      rw [bulge_hor_at (θ := Real.pi / 2) (by push_cast; ring) (by push_cast; ring), bulge_hor_at (θ := 2 * Real.pi / 3) (by push_cast; ring) (by push_cast; ring),
        Real.sin_pi_div_two, sin_third, ← hw, max_eq_left hle]
      norm_num
  have e2 : verOf bulgeGrid ⟨3, i, i + 1, 0, 2⟩ ≤ 0.6 := by
    have : ∀ j, Spec.dist (bulgeGrid 3 i j) (bulgeGrid 3 (i + 1) j) ≤ 0.6 := by
      intro j
      rw [bulge_ver_at (δ := -(Real.pi / 6)) (by push_cast; ring)]
      refine (chord_le one_pos _).trans ?_
      rw [abs_neg, abs_of_pos (by positivity)]
      have := Real.pi_lt_d2
      norm_num at this ⊢
      linarith
    exact max_le (this 0) (this 2)
  rw [e1] at hh hv
  rw [hd]
  have ht : h = true := hh.2 (Or.inl (by norm_num at w1 ⊢; linarith))
  have hf : v = false := by
    rw [Bool.eq_false_iff]
    intro hc
    rcases hv.1 hc with hc | ⟨hc, -⟩ <;> norm_num at hc w1 e2 <;> linarith
  rw [ht, hf]

/-- All quads of the mesh leave the part of the parameter square clear. -/
theorem bulge_clear {rAvg : ℝ} (hr : 0 < rAvg) {fuel : ℕ} {quads : List Quad}
    (h : refineAll (decision (bulge rAvg).gridPoint (splitReal (fun _ => 0.98))) fuel 2 = some quads) : ∀ q ∈ quads, Clear q := by
  refine refineAll_closed (P := fun q => q = ⟨2, 1, 2, 0, 1⟩ ∨ q = ⟨3, 2, 3, 0, 2⟩ ∨ q = ⟨3, 3, 4, 0, 2⟩ ∨ (Clear q ∧ q.i0 < q.i1 ∧ q.j0 < q.j1)) ?_ ?_ ?_ h
  · rintro q a b (rfl | rfl | rfl | hq) hd hab c hc
    · rw [bulge_split0 hr] at hd
      cases hd
      simp only [children, Bool.false_and, Bool.false_eq_true, if_false, if_true, List.mem_cons, List.not_mem_nil, or_false] at hc
      rcases hc with rfl | rfl <;> simp
    · rw [bulge_split1 hr (Or.inl rfl)] at hd
      cases hd
      simp only [children, Bool.and_false, Bool.false_eq_true, if_false, if_true, List.mem_cons, List.not_mem_nil, or_false] at hc
      rcases hc with rfl | rfl <;> simp [Clear]
    · rw [bulge_split1 hr (Or.inr rfl)] at hd
      cases hd
      simp only [children, Bool.and_false, Bool.false_eq_true, if_false, if_true, List.mem_cons, List.not_mem_nil, or_false] at hc
      rcases hc with rfl | rfl <;> simp [Clear]
    · exact Or.inr (Or.inr (Or.inr (clear_children hq.1 hq.2 hc)))
  · rintro q (rfl | rfl | rfl | hq) hd
    · rw [bulge_split0 hr] at hd; cases hd
    · rw [bulge_split1 hr (Or.inl rfl)] at hd; cases hd
    · rw [bulge_split1 hr (Or.inr rfl)] at hd; cases hd
    · exact hq.1
  · intro q hq
    unfold startQuads at hq
    obtain ⟨i, hi, hq⟩ := List.mem_flatMap.1 hq
    obtain ⟨j, hj, rfl⟩ := List.mem_map.1 hq
    rw [List.mem_range] at hi hj
    by_cases h0 : i = 1 ∧ j = 0
    · obtain ⟨rfl, rfl⟩ := h0; left; rfl
    · right; right; right
      simp only [Clear]
      omega

end Traceon
