import Verif.Props.Bulge2

/-!
# C101 is false for disks

`Surface.disk_xy(0, 0, 1)` meshed with the constant mesh size 0.36 has gaps: the triangles around the centre meet the triangles further out in chords
of 45 degrees on the one side and chords of 22.5 degrees on the other side.
-/
namespace Traceon
open Spec SMesh

/-! ## Specification -/

/-- The point lies in, or on the border of, the triangle with these corners. -/
def Spec.InShape (p : V3) (T : List V3) : Prop :=
  ∃ a b c : V3, T = [a, b, c] ∧ ∃ x y z : ℝ, 0 ≤ x ∧ 0 ≤ y ∧ 0 ≤ z ∧ x + y + z = 1 ∧ p = x * a + y * b + z * c

/-! ## Proof -/

theorem V3.dot_comb (n a b c : V3) (x y z : ℝ) : V3.dot n ((x : ℝ) * a + y * b + z * c) = x * V3.dot n a + y * V3.dot n b + z * V3.dot n c := by
  simp [V3.dot]; ring

/-- what lies in a triangle lies on the same side of a plane as the corners -/
theorem inShape_le {p n : V3} {T : List V3} (h : InShape p T) {m : ℝ} (hm : ∀ q ∈ T, V3.dot n q ≤ m) : V3.dot n p ≤ m := by
  obtain ⟨a, b, c, rfl, x, y, z, hx, hy, hz, hs, rfl⟩ := h
  have ha := hm a (by simp)
  have hb := hm b (by simp)
  have hc := hm c (by simp)
  rw [V3.dot_comb]
  have k : x * m + y * m + z * m = m := by rw [← add_mul, ← add_mul, hs, one_mul]
  linarith [mul_le_mul_of_nonneg_left ha hx, mul_le_mul_of_nonneg_left hb hy, mul_le_mul_of_nonneg_left hc hz]

theorem inShape_ge {p n : V3} {T : List V3} (h : InShape p T) {m : ℝ} (hm : ∀ q ∈ T, m ≤ V3.dot n q) : m ≤ V3.dot n p := by
  obtain ⟨a, b, c, rfl, x, y, z, hx, hy, hz, hs, rfl⟩ := h
  have ha := hm a (by simp)
  have hb := hm b (by simp)
  have hc := hm c (by simp)
  rw [V3.dot_comb]
  have k : x * m + y * m + z * m = m := by rw [← add_mul, ← add_mul, hs, one_mul]
  linarith [mul_le_mul_of_nonneg_left ha hx, mul_le_mul_of_nonneg_left hb hy, mul_le_mul_of_nonneg_left hc hz]

/-- the (second) positions of the corners of the triangles of a quad: its sides and the middle -/
theorem quadTriangles_nodes {m : IndexMap} {q : Quad} {t : List Pos} (h : t ∈ quadTriangles m q) :
    ∀ p ∈ t, p.2 = q.j0 ∨ p.2 = q.j1 ∨ (p.2 = (q.j0 + q.j1) / 2 ∧ 1 < absDiff q.j0 q.j1) := by
  obtain ⟨d, i0, i1, j0, j1⟩ := q
  have hd : absDiff j1 j0 = absDiff j0 j1 := Nat.add_comm ..
  have hself : ∀ x, absDiff x x = 0 := by intro x; simp [absDiff]
  have hm : ∀ x : ℕ, (x + x) / 2 = x := by intro x; omega
  have hc : (j1 + j0) / 2 = (j0 + j1) / 2 := by rw [Nat.add_comm]
  unfold quadTriangles threeTriangles at h
  dsimp only at h
  have fin : ∀ l : List (List Pos), t ∈ l → (∀ t ∈ l, ∀ p ∈ t, p.2 = j0 ∨ p.2 = j1 ∨ (p.2 = (j0 + j1) / 2 ∧ 1 < absDiff j0 j1)) →
      ∀ p ∈ t, p.2 = j0 ∨ p.2 = j1 ∨ (p.2 = (j0 + j1) / 2 ∧ 1 < absDiff j0 j1) := fun l h1 h2 => h2 t h1
  split at h
  · rename_i hh
    simp only [hasMid, hself, Bool.and_eq_true, Bool.or_eq_true, decide_eq_true_eq] at hh
    refine fin _ h ?_
    simp only [List.forall_mem_cons, List.not_mem_nil, false_imp_iff, implies_true, and_true, midPos]
    have := hh.1
    grind
  · split at h
    · refine fin _ h ?_
      simp only [List.forall_mem_cons, List.not_mem_nil, false_imp_iff, implies_true, and_true, midPos]
      grind
    · split at h
      · rename_i hh
        simp only [hasMid, hself, hd, Bool.and_eq_true, Bool.or_eq_true, decide_eq_true_eq] at hh
        refine fin _ h ?_
        simp only [List.forall_mem_cons, List.not_mem_nil, false_imp_iff, implies_true, and_true, midPos]
        have := hh.1
        grind
      · split at h
        · refine fin _ h ?_
          simp only [List.forall_mem_cons, List.not_mem_nil, false_imp_iff, implies_true, and_true, midPos]
          grind
        · refine fin _ h ?_
          simp only [List.forall_mem_cons, List.not_mem_nil, false_imp_iff, implies_true, and_true]
          grind

/-! ### The disk -/

/-- `Surface.disk_xy(0, 0, 1)` -/
noncomputable def unitDisk (rAvg : ℝ) : Surface := ((Path.line 0 ⟨1, 0, 0⟩).revolveZ rAvg (2 * Real.pi)).move ⟨0, 0, 0⟩

noncomputable def polarAt (r φ : ℝ) : V3 := ⟨r * Real.cos φ, r * Real.sin φ, 0⟩

theorem unitDisk_func {rAvg : ℝ} (hr : 0 < rAvg) (u v : ℝ) : (unitDisk rAvg).func u v = some (polarAt u (v / (2 * Real.pi * rAvg) * (2 * Real.pi))) := by
  have hn : V3.norm ((0 : V3) - ⟨1, 0, 0⟩) = 1 := by
    unfold V3.norm V3.dot; simp
  have hq : (Path.line 0 ⟨1, 0, 0⟩).func u = some ⟨u, 0, 0⟩ := by
    simp only [Path.line, hn, safeDiv, one_ne_zero, if_false]
    rw [Option.map_some, Option.some.injEq, div_one]
    ext <;> simp
  unfold unitDisk
  simp only [Surface.move, Surface.mapPoints, moveFn]
  rw [revolveZ_func _ hr.ne' _ _ _ hq]
  simp only [Option.bind_some, moveFn, Option.some.injEq]
  ext <;> simp [rotC, polarAt] <;> ring

theorem unitDisk_lengths (rAvg : ℝ) : (unitDisk rAvg).length1 = 1 ∧ (unitDisk rAvg).length2 = 2 * Real.pi * rAvg := by
  have hn : V3.norm ((0 : V3) - ⟨1, 0, 0⟩) = 1 := by
    unfold V3.norm V3.dot; simp
  refine ⟨?_, rfl⟩
  simp [unitDisk, Surface.move, Surface.mapPoints, Path.revolveZ, Path.line, hn]

noncomputable def diskGrid (d i j : ℕ) : V3 := polarAt (1 / 2 ^ d * i) (2 * Real.pi / 2 ^ d * j)

theorem unitDisk_grid {rAvg : ℝ} (hr : 0 < rAvg) (d i j : ℕ) : (unitDisk rAvg).gridPoint d i j = some (diskGrid d i j) := by
  have hpi := Real.pi_pos
  unfold Surface.gridPoint
  rw [unitDisk_func hr]
  unfold diskGrid
  rw [(unitDisk_lengths rAvg).1, (unitDisk_lengths rAvg).2]
  congr 2
  field_simp

theorem polar_hor {r : ℝ} (hr : 0 ≤ r) (φ φ' : ℝ) : Spec.dist (polarAt r φ) (polarAt r φ') = 2 * r * |Real.sin ((φ - φ') / 2)| := by
  have h := chord_aux φ φ'
  unfold Spec.dist V3.norm V3.dot
  rw [show (2 * r * |Real.sin ((φ - φ') / 2)| : ℝ) = Real.sqrt (r ^ 2 * (2 * |Real.sin ((φ - φ') / 2)|) ^ 2) by
    rw [← mul_pow, Real.sqrt_sq (by positivity)]; ring, ← h]
  congr 1
  simp [polarAt]
  ring

theorem polar_ver (r r' φ : ℝ) : Spec.dist (polarAt r φ) (polarAt r' φ) = |r - r'| := by
  unfold Spec.dist V3.norm V3.dot
  rw [← Real.sqrt_sq_eq_abs]
  congr 1
  simp [polarAt]
  linear_combination (r - r') ^ 2 * Real.sin_sq_add_cos_sq φ

theorem sin_eighths : Real.sin (Real.pi / 4) < 0.7072 ∧ 0.707 < Real.sin (Real.pi / 4) ∧ 0.38 < Real.sin (Real.pi / 8) := by
  have h2 : Real.sqrt 2 < 1.41422 := by rw [Real.sqrt_lt' (by norm_num)]; norm_num
  have h1 : 1.41421 < Real.sqrt 2 := Real.lt_sqrt_of_sq_lt (by norm_num)
  rw [Real.sin_pi_div_four, Real.sin_pi_div_eight]
  refine ⟨by norm_num at h2 ⊢; linarith, by norm_num at h1 ⊢; linarith, ?_⟩
  have : 0.76 < Real.sqrt (2 - Real.sqrt 2) := Real.lt_sqrt_of_sq_lt (by norm_num at h2 ⊢; linarith)
  norm_num at this ⊢
  linarith

/-- around the centre nothing is split -/
theorem disk_inner {rAvg : ℝ} (hr : 0 < rAvg) {j : ℕ} (hj : j < 4) :
    decision (unitDisk rAvg).gridPoint (splitReal (fun _ => 0.36)) ⟨2, 0, 1, j, j + 1⟩ = some (false, false) := by
  obtain ⟨s1, s2, s3⟩ := sin_eighths
  obtain ⟨h, v, hd, hh, hv⟩ := decision_real (s := unitDisk rAvg) (g := diskGrid) (fun d i j _ _ => unitDisk_grid hr d i j) (fun _ => 0.36) (q := ⟨2, 0, 1, j, j + 1⟩)
    ⟨by simp, by simp, by simp, by simp; omega⟩
  have s0 : 0 < Real.sin (Real.pi / 4) := lt_trans (by norm_num) s2
  have e1 : horOf diskGrid ⟨2, 0, 1, j, j + 1⟩ = 1 / 2 * Real.sin (Real.pi / 4) := by
    simp only [horOf, diskGrid]
    rw [polar_hor (by positivity), polar_hor (by positivity)]
    have : (2 * Real.pi / 2 ^ 2 * (j : ℝ) - 2 * Real.pi / 2 ^ 2 * ((j + 1 : ℕ) : ℝ)) / 2 = -(Real.pi / 4) := by push_cast; ring
    rw [this, Real.sin_neg, abs_neg, abs_of_pos s0]
    rw [max_eq_right (by push_cast; rw [mul_zero, mul_zero, zero_mul]; positivity)]
    push_cast; ring
  have e2 : verOf diskGrid ⟨2, 0, 1, j, j + 1⟩ = 1 / 4 := by
    simp only [verOf, diskGrid]
    rw [polar_ver, polar_ver, max_self]
    norm_num
  rw [e1, e2] at hh hv
  rw [hd]
  have hf : h = false := by
    rw [Bool.eq_false_iff]
    intro hc
    rcases hh.1 hc with hc | ⟨hc, -⟩ <;> norm_num at hc s1 s2 <;> linarith
  have hvf : v = false := by
    rw [Bool.eq_false_iff]
    intro hc
    rcases hv.1 hc with hc | ⟨hc, -⟩
    · norm_num at hc
    · norm_num at hc s1 s2; linarith
  rw [hf, hvf]

/-- further out the quads are split twice along the circle -/
theorem disk_outer {rAvg : ℝ} (hr : 0 < rAvg) {i j k : ℕ} (hi : 1 ≤ i) (hi' : i < 4) (hk : k ≤ 1) (hj : j < 2 ^ (2 + k)) :
    decision (unitDisk rAvg).gridPoint (splitReal (fun _ => 0.36)) ⟨2 + k, i * 2 ^ k, (i + 1) * 2 ^ k, j, j + 1⟩ = some (true, false) := by
  obtain ⟨s1, s2, s3⟩ := sin_eighths
  have hkp : 0 < 2 ^ k := Nat.two_pow_pos k
  obtain ⟨h, v, hd, hh, hv⟩ := decision_real (s := unitDisk rAvg) (g := diskGrid) (fun d i j _ _ => unitDisk_grid hr d i j) (fun _ => 0.36)
    (q := ⟨2 + k, i * 2 ^ k, (i + 1) * 2 ^ k, j, j + 1⟩)
    ⟨by simp [Nat.add_mul], by simp only [pow_add]; exact Nat.mul_le_mul_right _ (by omega), by simp, hj⟩
  have pk : (2 : ℝ) ^ k ≠ 0 := by positivity
  have rad : ∀ i : ℕ, (1 : ℝ) / 2 ^ (2 + k) * ((i * 2 ^ k : ℕ) : ℝ) = i / 4 := by
    intro i; push_cast; rw [pow_add]; field_simp; ring
  have e1 : 0.38 < horOf diskGrid ⟨2 + k, i * 2 ^ k, (i + 1) * 2 ^ k, j, j + 1⟩ := by
    simp only [horOf, diskGrid]
    rw [rad, rad, polar_hor (by positivity), polar_hor (by positivity)]
    refine lt_of_lt_of_le ?_ (le_max_right _ _)
    have : (2 * Real.pi / 2 ^ (2 + k) * (j : ℝ) - 2 * Real.pi / 2 ^ (2 + k) * ((j + 1 : ℕ) : ℝ)) / 2 = -(Real.pi / 2 ^ (2 + k)) := by push_cast; ring
    rw [this, Real.sin_neg, abs_neg]
    have hx : (1 : ℝ) ≤ 2 * (((i + 1 : ℕ) : ℝ) / 4) := by
      have : (1 : ℝ) ≤ i := by exact_mod_cast hi
      push_cast; linarith
    have hs : 0.38 < |Real.sin (Real.pi / 2 ^ (2 + k))| := by
      rcases Nat.le_one_iff_eq_zero_or_eq_one.1 hk with rfl | rfl
      · rw [show Real.pi / 2 ^ (2 + 0) = Real.pi / 4 by norm_num]
        exact lt_of_lt_of_le (by norm_num at s2 ⊢; linarith) (le_abs_self _)
      · rw [show Real.pi / 2 ^ (2 + 1) = Real.pi / 8 by norm_num]
        exact lt_of_lt_of_le s3 (le_abs_self _)
    nlinarith
  have e2 : verOf diskGrid ⟨2 + k, i * 2 ^ k, (i + 1) * 2 ^ k, j, j + 1⟩ = 1 / 4 := by
    simp only [verOf, diskGrid]
    rw [rad, rad, polar_ver, polar_ver, max_self, ← sub_div, ← abs_neg]
    push_cast
    rw [show -(((i : ℝ) - (i + 1)) / 4) = 1 / 4 by ring]
    norm_num
  rw [e2] at hv
  rw [hd]
  have ht : h = true := hh.2 (Or.inl (by norm_num at e1 ⊢; linarith))
  have hvf : v = false := by
    rw [Bool.eq_false_iff]
    intro hc
    rcases hv.1 hc with hc | ⟨hc, -⟩
    · norm_num at hc
    · norm_num at hc e1; linarith
  rw [ht, hvf]

/-- The quads of the mesh: four around the centre, and quads of at most 1/16 turn further out. -/
def DiskQuad (q : Quad) : Prop := (∃ j < 4, q = ⟨2, 0, 1, j, j + 1⟩) ∨ (2 ^ q.depth ≤ 4 * q.i0 ∧ 16 * q.j1 ≤ 2 ^ q.depth + 16 * q.j0 ∧ 16 ≤ 2 ^ q.depth)

theorem disk_quads {rAvg : ℝ} (hr : 0 < rAvg) {fuel : ℕ} {quads : List Quad}
    (h : refineAll (decision (unitDisk rAvg).gridPoint (splitReal (fun _ => 0.36))) fuel 2 = some quads) : ∀ q ∈ quads, DiskQuad q := by
  refine refineAll_closed (P := fun q => (∃ i j k, 1 ≤ i ∧ i < 4 ∧ k ≤ 1 ∧ j < 2 ^ (2 + k) ∧ q = ⟨2 + k, i * 2 ^ k, (i + 1) * 2 ^ k, j, j + 1⟩) ∨ DiskQuad q) ?_ ?_ ?_ h
  · rintro q a b (⟨i, j, k, h1, h2, h3, h4, rfl⟩ | ⟨j, hj, rfl⟩ | hq) hd hab c hc
    · rw [disk_outer hr h1 h2 h3 h4] at hd
      cases hd
      simp only [children, Bool.and_false, Bool.false_eq_true, if_false, if_true, List.mem_cons, List.not_mem_nil, or_false] at hc
      rcases Nat.le_one_iff_eq_zero_or_eq_one.1 h3 with rfl | rfl
      · left
        rcases hc with rfl | rfl
        · exact ⟨i, 2 * j, 1, h1, h2, le_rfl, by simp at h4 ⊢; omega, by simp; omega⟩
        · exact ⟨i, 2 * j + 1, 1, h1, h2, le_rfl, by simp at h4 ⊢; omega, by simp; omega⟩
      · right; right
        rcases hc with rfl | rfl <;> simp <;> omega
    · rw [disk_inner hr hj] at hd
      cases hd
      simp at hab
    · right; right
      obtain ⟨g1, g2, g3⟩ := hq
      have hp : 2 ^ (q.depth + 1) = 2 ^ q.depth * 2 := Nat.pow_succ ..
      cases a <;> cases b <;>
        simp only [children, Bool.and_false, Bool.and_true, Bool.false_eq_true, if_false, if_true, List.mem_cons, List.not_mem_nil, or_false] at hc
      · rcases hc with rfl | rfl <;> simp only [hp] <;> omega
      · rcases hc with rfl | rfl <;> simp only [hp] <;> omega
      · rcases hc with rfl | rfl | rfl | rfl <;> simp only [hp] <;> omega
  · rintro q (⟨i, j, k, h1, h2, h3, h4, rfl⟩ | hq) hd
    · rw [disk_outer hr h1 h2 h3 h4] at hd; cases hd
    · exact hq
  · intro q hq
    unfold startQuads at hq
    obtain ⟨i, hi, hq⟩ := List.mem_flatMap.1 hq
    obtain ⟨j, hj, rfl⟩ := List.mem_map.1 hq
    rw [List.mem_range] at hi hj
    by_cases h0 : i = 0
    · subst h0; right; left; exact ⟨j, by simpa using hj, rfl⟩
    · left; exact ⟨i, j, 0, by omega, by simpa using hi, by omega, by simpa using hj, by simp⟩

/-! ### The gap -/

theorem polar_dot (r φ r' φ' : ℝ) : V3.dot (polarAt r φ) (polarAt r' φ') = r * r' * Real.cos (φ' - φ) := by
  rw [Real.cos_sub]; simp [V3.dot, polarAt]; ring

/-- odd multiples of 22.5 degrees are away from the axis -/
theorem cos_odd_eighth (k : ℕ) : Real.cos (2 * Real.pi / 8 * k - Real.pi / 8) < 0.95 := by
  set x := 2 * Real.pi / 8 * k - Real.pi / 8 with hx
  have h0 : Real.cos (2 * (2 * x)) = 0 := by
    rw [Real.cos_eq_zero_iff]
    refine ⟨k - 1, ?_⟩
    rw [hx]; push_cast; ring
  have h1 := Real.cos_two_mul (2 * x)
  have h2 := Real.cos_two_mul x
  rw [h0] at h1
  by_contra h
  push Not at h
  norm_num at h
  have h3 : 0.8 ≤ Real.cos (2 * x) := by rw [h2]; norm_num; nlinarith
  norm_num at h3
  nlinarith

theorem cos_sixteenth {x : ℝ} (h : |x| ≤ Real.pi / 16) : 0.97 ≤ Real.cos x := by
  have h1 := Real.one_sub_sq_div_two_le_cos (x := x)
  have h2 := Real.pi_lt_d2
  have h3 : x ^ 2 ≤ (Real.pi / 16) ^ 2 := by rw [← sq_abs]; exact pow_le_pow_left₀ (abs_nonneg x) h _
  have h4 : (Real.pi / 16) ^ 2 ≤ (3.15 / 16) ^ 2 := pow_le_pow_left₀ (by positivity) (by linarith) _
  norm_num at h4 ⊢
  linarith

/-- a point of the disk between the chords -/
noncomputable def gapPoint : V3 := polarAt 0.24 (Real.pi / 8)

/-- Every triangle of the mesh has the point on the other side of a plane. -/
theorem disk_separated {rAvg : ℝ} (hr : 0 < rAvg) (hs : GoodSurface (unitDisk rAvg)) {fuel : ℕ} {name : Option String} {mesh : Mesh V3}
    (h : (unitDisk rAvg).rawMesh (fun _ => 0.36) fuel name = some mesh) {T : List V3} (hT : T ∈ triShapes mesh) :
    (∃ n m, (∀ q ∈ T, V3.dot n q ≤ m) ∧ m < V3.dot n gapPoint) ∨ (∃ n m, (∀ q ∈ T, m ≤ V3.dot n q) ∧ V3.dot n gapPoint < m) := by
  have hpi := Real.pi_pos
  obtain ⟨t, ht, rfl⟩ := List.mem_map.1 hT
  have hr' := refined_of_rawMesh (fun pt hpt => section_consistent hpt) h
  obtain ⟨mesh', D, ms, rs, h1, hml, hrl, hq, hdef, htri, -⟩ := SMesh.rawMesh_spec (splitReal (fun _ => 0.36)) fuel 2 name (fun pt hpt => section_consistent hpt)
    (fun pt hpt => section_total hs hpt) hr' (by rw [List.length_map, sections_length]) (adjacent_ok (Or.inl rfl))
  unfold Surface.rawMesh at h
  rw [h] at h1
  cases h1
  have hmem : t.map (fun k => mesh.points[k]?) ∈ mesh.triangles.map (fun t => t.map (fun k => mesh.points[k]?)) := List.mem_map_of_mem ht
  rw [htri] at hmem
  obtain ⟨l, hl1, hl2⟩ := List.mem_flatten.1 hmem
  obtain ⟨⟨m, r, pt⟩, hx, rfl⟩ := List.mem_map.1 hl1
  obtain ⟨k, hk⟩ := List.getElem?_of_mem hx
  rw [List.getElem?_zip_eq_some, List.getElem?_zip_eq_some] at hk
  obtain ⟨-, hk2, hk3⟩ := hk
  obtain ⟨hquads, hgrid⟩ := hq k _ _ hk3 hk2
  have hpt : pt = (unitDisk rAvg).gridPoint := by
    have := List.mem_of_getElem? hk3
    rw [single_section (s := unitDisk rAvg) rfl rfl] at this
    simpa using this
  simp only at hpt hquads hk2 hk3 hl2
  subst hpt
  obtain ⟨t', ht', het⟩ := List.mem_map.1 hl2
  simp only [sectionTriangles] at ht'
  obtain ⟨sq, hsq, ht'⟩ := List.mem_flatMap.1 ht'
  obtain ⟨q, hqm, rfl⟩ := List.mem_map.1 hsq
  obtain ⟨⟨g1, g2, g3, g4⟩, hD⟩ := hgrid q hqm
  have hrange := quadTriangles_range (q := scaleQuad D q) (Nat.mul_le_mul_right _ g1.le) (Nat.mul_le_mul_right _ g3.le) ht'
  have hnodes := quadTriangles_nodes ht'
  have hpowN : 2 ^ q.depth * 2 ^ (D - q.depth) = 2 ^ D := by rw [← Nat.pow_add]; congr 1; omega
  have hD2 : (0 : ℝ) < 2 ^ D := by positivity
  -- each corner of the triangle is a node of the quad
  have hcorner : ∀ c ∈ coords mesh.points t, ∃ x ∈ t', c = diskGrid D x.1 x.2 := by
    intro c hc
    unfold coords at hc
    obtain ⟨i, hi, hic⟩ := List.mem_filterMap.1 hc
    have : some c ∈ t.map (fun k => mesh.points[k]?) := List.mem_map.2 ⟨i, hi, hic⟩
    rw [← het] at this
    obtain ⟨x, hx, hxc⟩ := List.mem_map.1 this
    rw [unitDisk_grid hr, Option.some.injEq] at hxc
    exact ⟨x, hx, hxc.symm⟩
  simp only [scaleQuad] at hrange hnodes
  rcases disk_quads hr hquads q hqm with ⟨j, hj, rfl⟩ | ⟨d1, d2, d3⟩
  · left
    simp only at hD hpowN hrange hnodes
    refine ⟨polarAt 1 (Real.pi / 8), 0.95 / 4, fun c hc => ?_, ?_⟩
    · obtain ⟨x, hx, rfl⟩ := hcorner c hc
      obtain ⟨r1, r2, r3, r4⟩ := hrange x hx
      have hrad : 0 ≤ (1 : ℝ) / 2 ^ D * x.1 ∧ (1 : ℝ) / 2 ^ D * x.1 ≤ 1 / 4 := by
        refine ⟨by positivity, ?_⟩
        have : 4 * x.1 ≤ 2 ^ D := by rw [← hpowN]; omega
        have h' : (4 : ℝ) * x.1 ≤ 2 ^ D := by exact_mod_cast this
        rw [one_div, inv_mul_le_iff₀ hD2]; linarith
      have hang : ∃ k : ℕ, 2 * Real.pi / 2 ^ D * (x.2 : ℝ) = 2 * Real.pi / 8 * k := by
        have : ∃ k : ℕ, 8 * x.2 = k * 2 ^ D := by
          rcases hnodes x hx with e | e | ⟨e, hlt⟩
          · exact ⟨2 * j, by rw [e, ← hpowN]; ring⟩
          · exact ⟨2 * (j + 1), by rw [e, ← hpowN]; ring⟩
          · have hD3 : 3 ≤ D := by
              by_contra hc
              have : D - 2 = 0 := by omega
              rw [this] at hlt
              simp [absDiff] at hlt
            have h2 : 2 ^ (D - 2) = 2 * 2 ^ (D - 3) := by rw [← Nat.pow_succ']; congr 1; omega
            refine ⟨2 * j + 1, ?_⟩
            rw [e, ← hpowN, h2]
            have : j * (2 * 2 ^ (D - 3)) + (j + 1) * (2 * 2 ^ (D - 3)) = ((2 * j + 1) * 2 ^ (D - 3)) * 2 := by ring
            rw [this, Nat.mul_div_cancel _ (by norm_num)]
            ring
        obtain ⟨k, hk⟩ := this
        refine ⟨k, ?_⟩
        have h' : (8 : ℝ) * x.2 = k * 2 ^ D := by exact_mod_cast hk
        field_simp
        linarith
      obtain ⟨k, hk⟩ := hang
      unfold diskGrid
      rw [polar_dot, hk, one_mul]
      have hc := cos_odd_eighth k
      rcases le_total 0 (Real.cos (2 * Real.pi / 8 * k - Real.pi / 8)) with h0 | h0
      · exact (mul_le_mul hrad.2 hc.le h0 (by norm_num)).trans_eq (by norm_num)
      · have := mul_nonpos_of_nonneg_of_nonpos hrad.1 h0
        norm_num at this ⊢
        linarith
    · unfold gapPoint
      rw [polar_dot, sub_self, Real.cos_zero]
      norm_num
  · right
    set α : ℝ := 2 * Real.pi / 2 ^ q.depth * q.j0 with hα
    refine ⟨polarAt 1 (α + Real.pi / 16), 0.97 / 4, fun c hc => ?_, ?_⟩
    · obtain ⟨x, hx, rfl⟩ := hcorner c hc
      obtain ⟨r1, r2, r3, r4⟩ := hrange x hx
      have hrad : 1 / 4 ≤ (1 : ℝ) / 2 ^ D * x.1 := by
        have : 2 ^ D ≤ 4 * x.1 := by rw [← hpowN]; nlinarith
        have h' : (2 : ℝ) ^ D ≤ 4 * x.1 := by exact_mod_cast this
        rw [one_div (2 ^ D), inv_mul_eq_div, le_div_iff₀ hD2]; linarith
      have hpR : (2 : ℝ) ^ q.depth * 2 ^ (D - q.depth) = 2 ^ D := by exact_mod_cast hpowN
      have hang : |2 * Real.pi / 2 ^ D * (x.2 : ℝ) - (α + Real.pi / 16)| ≤ Real.pi / 16 := by
        have a1 : (q.j0 : ℝ) * 2 ^ (D - q.depth) ≤ x.2 := by exact_mod_cast r3
        have a2 : (x.2 : ℝ) ≤ q.j1 * 2 ^ (D - q.depth) := by exact_mod_cast r4
        have a3 : (16 : ℝ) * q.j1 ≤ 2 ^ q.depth + 16 * q.j0 := by exact_mod_cast d2
        have pE : (0 : ℝ) < 2 ^ (D - q.depth) := by positivity
        have pd : (0 : ℝ) < 2 ^ q.depth := by positivity
        have eα : α = 2 * Real.pi / 2 ^ D * (q.j0 * 2 ^ (D - q.depth)) := by
          rw [hα, ← hpR]; field_simp
        have b1 : 2 * Real.pi / 2 ^ D * (q.j0 * 2 ^ (D - q.depth)) ≤ 2 * Real.pi / 2 ^ D * (x.2 : ℝ) := mul_le_mul_of_nonneg_left a1 (by positivity)
        have b2 : 2 * Real.pi / 2 ^ D * (x.2 : ℝ) ≤ 2 * Real.pi / 2 ^ D * (2 ^ D / 16 + q.j0 * 2 ^ (D - q.depth)) := by
          refine mul_le_mul_of_nonneg_left (a2.trans ?_) (by positivity)
          rw [← hpR]
          nlinarith
        rw [mul_add, ← eα] at b2
        rw [← eα] at b1
        have b3 : 2 * Real.pi / 2 ^ D * (2 ^ D / 16) = Real.pi / 8 := by field_simp; norm_num
        rw [b3] at b2
        rw [abs_le]
        constructor <;> linarith
      have hc := cos_sixteenth hang
      unfold diskGrid
      rw [polar_dot, one_mul]
      norm_num at hc hrad ⊢
      nlinarith
    · unfold gapPoint
      rw [polar_dot]
      have := Real.cos_le_one (Real.pi / 8 - (α + Real.pi / 16))
      norm_num
      linarith

/-- **C101 is false** for disks: the mesh of the disk with radius 1 that `Surface.mesh` returns for the mesh size 0.36 has gaps. The point
`0.24 (cos 22.5°, sin 22.5°)` of the disk lies in no triangle of the mesh. (`rAvg` is the average radius the program computes.) -/
theorem C101_disk_refuted {rAvg : ℝ} (hr : 0 < rAvg) (name : Option String) (ensure : Bool) : ∃ s, Surface.diskXY 0 0 1 rAvg = some s ∧
    (∃ u v, 0 ≤ u ∧ u ≤ s.length1 ∧ 0 ≤ v ∧ v ≤ s.length2 ∧ s.func u v = some ⟨0.24 * Real.cos (Real.pi / 8), 0.24 * Real.sin (Real.pi / 8), 0⟩) ∧
    ∃ fuel0, ∀ fuel, fuel0 ≤ fuel → ∃ M, s.mesh (realGeo id) fuel (some (fun _ => 0.36)) none name ensure = some M ∧
      ∀ T ∈ triShapes M, ¬ InShape ⟨0.24 * Real.cos (Real.pi / 8), 0.24 * Real.sin (Real.pi / 8), 0⟩ T := by
  have e : (⟨0.24 * Real.cos (Real.pi / 8), 0.24 * Real.sin (Real.pi / 8), 0⟩ : V3) = gapPoint := rfl
  have hpi := Real.pi_pos
  have n1 : (0 : V3) ≠ ⟨1, 0, 0⟩ := fun e => by have := congrArg V3.x e; simp at this
  have ht : Tame (unitDisk rAvg) := move_tame (polygon_revolve_tame (.line n1) hr _).2.2 _
  obtain ⟨K, hK, hl⟩ := ht.speed
  refine ⟨unitDisk rAvg, if_pos one_pos, ⟨0.24, Real.pi * rAvg / 8, by norm_num, ?_, by positivity, ?_, ?_⟩, ?_⟩
  · rw [(unitDisk_lengths rAvg).1]; norm_num
  · rw [(unitDisk_lengths rAvg).2]; nlinarith [mul_pos hpi hr]
  · rw [unitDisk_func hr, e]
    unfold gapPoint
    congr 2
    field_simp
  · rw [e]
    have hG := realGeo_lawful id
    obtain ⟨f0, hf⟩ := C66_finishes ht.good hK hl (size := fun _ => 0.36) (m0 := 0.36) (by norm_num) (fun _ => le_rfl) (name.or (unitDisk rAvg).name) hG ensure
    refine ⟨f0, fun fuel hfu => ?_⟩
    obtain ⟨raw, M, r1, r2, -, -, r5, -⟩ := hf fuel hfu
    obtain ⟨M', hM', r⟩ := Mesh.build_shapes hG raw r2 ensure
    rw [r5] at hM'; cases hM'
    have e36 : (unitDisk rAvg).meshSize (some (fun _ => 0.36)) none = fun _ => 0.36 := rfl
    refine ⟨M, by simp [Surface.mesh, e36, r1, r5], fun T hT hin => ?_⟩
    obtain ⟨T0, hT0, hsame⟩ := r.tris.mem_right hT
    have hmem := sameTri_mem hsame
    rcases disk_separated hr ht.good r1 (List.mem_filter.1 hT0).1 with ⟨n, m, k1, k2⟩ | ⟨n, m, k1, k2⟩
    · exact absurd (inShape_le hin (fun q hq => k1 q ((hmem q).1 hq))) (not_le.2 k2)
    · exact absurd (inShape_ge hin (fun q hq => k1 q ((hmem q).1 hq))) (not_le.2 k2)

end Traceon
