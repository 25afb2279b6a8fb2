import Verif.Props.Surfaces

/-!
# C30: the surfaces of a box are exactly the boundary of the box; C64: the same for rectangles, disks,
spheres and apertures
-/
namespace Traceon
open Spec V3

/-- All the points of a path. -/
def Spec.pathPoints (p : Path) (q : V3) : Prop := ∃ t, 0 ≤ t ∧ t ≤ p.length ∧ p.func t = some q

/-- All the points of a surface. -/
def Spec.surfacePoints (s : Surface) (q : V3) : Prop :=
  ∃ u v, 0 ≤ u ∧ u ≤ s.length1 ∧ 0 ≤ v ∧ v ≤ s.length2 ∧ s.func u v = some q

/-- Every point of the surface can be computed. -/
def Spec.SurfaceDefined (s : Surface) : Prop :=
  ∀ u v, 0 ≤ u → u ≤ s.length1 → 0 ≤ v → v ≤ s.length2 → ∃ q, s.func u v = some q

/-- The straight segment between two points. -/
def Spec.segment (a b q : V3) : Prop := ∃ m : ℝ, 0 ≤ m ∧ m ≤ 1 ∧ q = (1 - m) * a + m * b

theorem line_points {a b : V3} (h : a ≠ b) (q : V3) : pathPoints (Path.line a b) q ↔ segment a b q := by
  have hn := norm_sub_pos h
  constructor
  · rintro ⟨t, h0, h1, h2⟩
    rw [line_func h] at h2
    exact ⟨_, div_nonneg h0 hn.le, by rw [div_le_one hn]; exact h1, (Option.some.inj h2).symm⟩
  · rintro ⟨m, h0, h1, rfl⟩
    refine ⟨m * V3.norm (a - b), by positivity, ?_, ?_⟩
    · show m * V3.norm (a - b) ≤ V3.norm (a - b)
      nlinarith
    · rw [line_func h, mul_div_cancel_right₀ _ hn.ne']

theorem lineTo_points {p : Path} (hp : GoodPath p) {a b : V3} (ha : p.endpoint = some a) (hab : a ≠ b) :
    ∃ r, p.lineTo b = some r ∧ GoodPath r ∧ r.start = p.start ∧ r.endpoint = some b ∧
      ∀ q, pathPoints r q ↔ pathPoints p q ∨ segment a b q := by
  obtain ⟨r, h1, h2, h3, h4, h5, _, _, _, _, h6, h7⟩ := C22_line_to hp ha hab
  have hn := norm_sub_pos hab
  have hl := hp.len
  refine ⟨r, h1, h2, h4, h5, fun q => ⟨?_, ?_⟩⟩
  · rintro ⟨t, t0, t1, ht⟩
    by_cases hle : t ≤ p.length
    · exact Or.inl ⟨t, t0, hle, by rw [← h6 t t0 hle]; exact ht⟩
    · push Not at hle
      have := h7 (t - p.length) (by linarith) (by linarith)
      rw [show p.length + (t - p.length) = t by ring, ht] at this
      refine Or.inr ⟨_, div_nonneg (by linarith) hn.le, ?_, Option.some.inj this⟩
      rw [div_le_one hn]; linarith
  · rintro (⟨t, t0, t1, ht⟩ | ⟨m, m0, m1, rfl⟩)
    · exact ⟨t, t0, by linarith, by rw [h6 t t0 t1]; exact ht⟩
    · have hm : m * V3.norm (a - b) ≤ V3.norm (a - b) := by nlinarith
      refine ⟨p.length + m * V3.norm (a - b), by positivity, by linarith, ?_⟩
      rw [h7 _ (by positivity) hm, mul_div_cancel_right₀ _ hn.ne']

theorem close_points {p : Path} (hp : GoodPath p) {a b : V3} (ha : p.endpoint = some a) (hb : p.start = some b)
    (hab : a ≠ b) :
    ∃ r, p.close = some r ∧ GoodPath r ∧ r.start = some b ∧ r.endpoint = some b ∧
      ∀ q, pathPoints r q ↔ pathPoints p q ∨ segment a b q := by
  obtain ⟨r, h1, h2, h3, h4, h5⟩ := lineTo_points hp ha hab
  exact ⟨r, by simp [Path.close, hb, h1], h2, by rw [h3, hb], h4, h5⟩

/-- A closed chain of four straight segments. -/
theorem loop_points {a b c d : V3} (hab : a ≠ b) (hbc : b ≠ c) (hcd : c ≠ d) (hda : d ≠ a) :
    ∃ r, ((Path.line a b).lineTo c).bind (fun p => (p.lineTo d).bind (fun p => p.close)) = some r ∧ GoodPath r ∧
      r.start = some a ∧ r.endpoint = some a ∧
      ∀ q, pathPoints r q ↔ segment a b q ∨ segment b c q ∨ segment c d q ∨ segment d a q := by
  obtain ⟨r1, h1, g1, s1, e1, q1⟩ := lineTo_points (line_good hab) (line_end hab) hbc
  obtain ⟨r2, h2, g2, s2, e2, q2⟩ := lineTo_points g1 e1 hcd
  obtain ⟨r3, h3, g3, s3, e3, q3⟩ := close_points g2 e2 (by rw [s2, s1, line_start hab]) hda
  refine ⟨r3, by simp [h1, h2, h3], g3, s3, e3, fun q => ?_⟩
  rw [q3, q2, q1, line_points hab]
  tauto

theorem extrude_points {p : Path} (hp : GoodPath p) {w : V3} (hw : w ≠ 0) :
    SurfaceDefined (p.extrude w) ∧ ∀ q, surfacePoints (p.extrude w) q ↔
      ∃ (q0 : V3) (m : ℝ), 0 ≤ m ∧ m ≤ 1 ∧ pathPoints p q0 ∧ q = q0 + m * w := by
  have hn := norm_pos hw
  have key : ∀ u q v, p.func u = some q → (p.extrude w).func u v = some (q + (v / V3.norm w) * w) := by
    intro u q v hq; simp [Path.extrude, hq, safeDiv, hn.ne']
  constructor
  · intro u v u0 u1 v0 v1
    obtain ⟨q, hq⟩ := hp.defined u u0 u1
    exact ⟨_, key u q v hq⟩
  · intro q
    constructor
    · rintro ⟨u, v, u0, u1, v0, v1, h⟩
      obtain ⟨q0, hq⟩ := hp.defined u u0 u1
      rw [key u q0 v hq] at h
      exact ⟨q0, v / V3.norm w, div_nonneg v0 hn.le, by rw [div_le_one hn]; exact v1, ⟨u, u0, u1, hq⟩,
        (Option.some.inj h).symm⟩
    · rintro ⟨q0, m, m0, m1, ⟨u, u0, u1, hq⟩, rfl⟩
      refine ⟨u, m * V3.norm w, u0, u1, by positivity, ?_, ?_⟩
      · show m * V3.norm w ≤ V3.norm w
        nlinarith
      · rw [key u q0 _ hq, mul_div_cancel_right₀ _ hn.ne']

/-- The surface between two straight lines. -/
theorem spanned_line_points {a b c d : V3} (hab : a ≠ b) (hcd : c ≠ d) (hac : a ≠ c) :
    ∃ s, Surface.spannedByPaths (Path.line a b) (Path.line c d) = some s ∧ SurfaceDefined s ∧
      ∀ q, surfacePoints s q ↔ ∃ k m : ℝ, 0 ≤ k ∧ k ≤ 1 ∧ 0 ≤ m ∧ m ≤ 1 ∧
        q = (1 - m) * ((1 - k) * a + k * b) + m * ((1 - k) * c + k * d) := by
  have hn1 := norm_sub_pos hab
  have hn2 := norm_sub_pos hcd
  have hl1 : (Path.line a b).length = V3.norm (a - b) := rfl
  have hl2 : (Path.line c d).length = V3.norm (c - d) := rfl
  obtain ⟨s, hs, p1, p2, _, key, _⟩ := C28_spanned_partial (line_good hab) (line_good hcd) hn1 hn2
    (Or.inl (by rw [line_start hab, line_start hcd]; simpa using hac))
  have key' : ∀ u v, s.func u v = some ((1 - v / s.length2) * ((1 - u / s.length1) * a + (u / s.length1) * b)
      + (v / s.length2) * ((1 - u / s.length1) * c + (u / s.length1) * d)) := by
    intro u v
    have := key (u / s.length1) _ _ (line_func hab _) (line_func hcd _) (v / s.length2)
    rw [div_mul_cancel₀ _ p1.ne', div_mul_cancel₀ _ p2.ne', hl1, hl2, mul_div_cancel_right₀ _ hn1.ne',
      mul_div_cancel_right₀ _ hn2.ne'] at this
    exact this
  refine ⟨s, hs, fun u v _ _ _ _ => ⟨_, key' u v⟩, fun q => ⟨?_, ?_⟩⟩
  · rintro ⟨u, v, u0, u1, v0, v1, h⟩
    rw [key'] at h
    exact ⟨u / s.length1, v / s.length2, div_nonneg u0 p1.le, by rw [div_le_one p1]; exact u1,
      div_nonneg v0 p2.le, by rw [div_le_one p2]; exact v1, (Option.some.inj h).symm⟩
  · rintro ⟨k, m, k0, k1, m0, m1, rfl⟩
    refine ⟨k * s.length1, m * s.length2, by positivity, by nlinarith, by positivity, by nlinarith, ?_⟩
    rw [key', mul_div_cancel_right₀ _ p1.ne', mul_div_cancel_right₀ _ p2.ne']

/-! ## C30 -/

/-- `t` lies between `a` and `b` (in either order). -/
def Spec.Between (a b t : ℝ) : Prop := min a b ≤ t ∧ t ≤ max a b

/-- `q` is on the boundary of the box with opposite corners `p0` and `p1`: inside the box and at one of the
six faces. -/
def Spec.OnBox (p0 p1 q : V3) : Prop :=
  Between p0.x p1.x q.x ∧ Between p0.y p1.y q.y ∧ Between p0.z p1.z q.z ∧
  (q.x = p0.x ∨ q.x = p1.x ∨ q.y = p0.y ∨ q.y = p1.y ∨ q.z = p0.z ∨ q.z = p1.z)

theorem between_iff {a b t : ℝ} (h : a < b) : (a ≤ t ∧ t ≤ b) ↔ ∃ m : ℝ, 0 ≤ m ∧ m ≤ 1 ∧ t = (1 - m) * a + m * b := by
  constructor
  · rintro ⟨h1, h2⟩
    have hd : 0 < b - a := by linarith
    refine ⟨(t - a) / (b - a), div_nonneg (by linarith) hd.le, by rw [div_le_one hd]; linarith, ?_⟩
    field_simp
    ring
  · rintro ⟨m, m0, m1, rfl⟩
    constructor <;> nlinarith

theorem minmax_or {a b t : ℝ} : (t = min a b ∨ t = max a b) ↔ (t = a ∨ t = b) := by
  rcases le_total a b with h | h
  · rw [min_eq_left h, max_eq_right h]
  · rw [min_eq_right h, max_eq_left h]; tauto

/-- the box for ordered corners -/
theorem box_points {x0 y0 z0 x1 y1 z1 : ℝ} (hx : x0 < x1) (hy : y0 < y1) (hz : z0 < z1) (q : V3)
    (Top Bottom Side : V3 → Prop)
    (hT : ∀ q, Top q ↔ ∃ k m : ℝ, 0 ≤ k ∧ k ≤ 1 ∧ 0 ≤ m ∧ m ≤ 1 ∧
        q = (1 - m) * ((1 - k) * (⟨x0, y0, z1⟩ : V3) + k * (⟨x1, y0, z1⟩ : V3)) + m * ((1 - k) * (⟨x0, y0, z0⟩ : V3) + k * (⟨x1, y0, z0⟩ : V3)))
    (hB : ∀ q, Bottom q ↔ ∃ k m : ℝ, 0 ≤ k ∧ k ≤ 1 ∧ 0 ≤ m ∧ m ≤ 1 ∧
        q = (1 - m) * ((1 - k) * (⟨x0, y1, z0⟩ : V3) + k * (⟨x1, y1, z0⟩ : V3)) + m * ((1 - k) * (⟨x0, y1, z1⟩ : V3) + k * (⟨x1, y1, z1⟩ : V3)))
    (hS : ∀ q, Side q ↔ ∃ (q0 : V3) (m : ℝ), 0 ≤ m ∧ m ≤ 1 ∧ (segment ⟨x0, y0, z0⟩ ⟨x1, y0, z0⟩ q0 ∨
        segment ⟨x1, y0, z0⟩ ⟨x1, y0, z1⟩ q0 ∨ segment ⟨x1, y0, z1⟩ ⟨x0, y0, z1⟩ q0 ∨
        segment ⟨x0, y0, z1⟩ ⟨x0, y0, z0⟩ q0) ∧ q = q0 + m * (⟨0, y1 - y0, 0⟩ : V3)) :
    (Top q ∨ Bottom q ∨ Side q) ↔
      (x0 ≤ q.x ∧ q.x ≤ x1) ∧ (y0 ≤ q.y ∧ q.y ≤ y1) ∧ (z0 ≤ q.z ∧ q.z ≤ z1) ∧
      ((q.x = x0 ∨ q.x = x1) ∨ (q.y = y0 ∨ q.y = y1) ∨ (q.z = z0 ∨ q.z = z1)) := by
  rw [hT, hB, hS]
  constructor
  · rintro (⟨k, m, k0, k1, m0, m1, rfl⟩ | ⟨k, m, k0, k1, m0, m1, rfl⟩ | ⟨q0, m, m0, m1, hq, rfl⟩)
    · simp only [add_x, add_y, add_z, smul_x, smul_y, smul_z]
      refine ⟨⟨?_, ?_⟩, ⟨?_, ?_⟩, ⟨?_, ?_⟩, Or.inr (Or.inl (Or.inl ?_))⟩ <;> (try ring_nf) <;> nlinarith
    · simp only [add_x, add_y, add_z, smul_x, smul_y, smul_z]
      refine ⟨⟨?_, ?_⟩, ⟨?_, ?_⟩, ⟨?_, ?_⟩, Or.inr (Or.inl (Or.inr ?_))⟩ <;> (try ring_nf) <;> nlinarith
    · rcases hq with ⟨k, k0, k1, rfl⟩ | ⟨k, k0, k1, rfl⟩ | ⟨k, k0, k1, rfl⟩ | ⟨k, k0, k1, rfl⟩ <;>
        simp only [add_x, add_y, add_z, smul_x, smul_y, smul_z]
      · refine ⟨⟨?_, ?_⟩, ⟨?_, ?_⟩, ⟨?_, ?_⟩, Or.inr (Or.inr (Or.inl ?_))⟩ <;> nlinarith
      · refine ⟨⟨?_, ?_⟩, ⟨?_, ?_⟩, ⟨?_, ?_⟩, Or.inl (Or.inr ?_)⟩ <;> nlinarith
      · refine ⟨⟨?_, ?_⟩, ⟨?_, ?_⟩, ⟨?_, ?_⟩, Or.inr (Or.inr (Or.inr ?_))⟩ <;> nlinarith
      · refine ⟨⟨?_, ?_⟩, ⟨?_, ?_⟩, ⟨?_, ?_⟩, Or.inl (Or.inl ?_)⟩ <;> nlinarith
  · obtain ⟨x, y, z⟩ := q
    rintro ⟨h1, h2, h3, h4⟩
    simp only at h1 h2 h3 h4
    obtain ⟨k, k0, k1, hk⟩ := (between_iff hx).1 h1
    obtain ⟨l, l0, l1, hl⟩ := (between_iff hy).1 h2
    obtain ⟨m, m0, m1, hm⟩ := (between_iff hz).1 h3
    rcases h4 with (h | h) | (h | h) | (h | h)
    · refine Or.inr (Or.inr ⟨⟨x0, y0, z⟩, l, l0, l1, Or.inr (Or.inr (Or.inr ⟨1 - m, by linarith, by linarith, ?_⟩)), ?_⟩) <;>
        ext <;> simp <;> linarith
    · refine Or.inr (Or.inr ⟨⟨x1, y0, z⟩, l, l0, l1, Or.inr (Or.inl ⟨m, by linarith, by linarith, ?_⟩), ?_⟩) <;>
        ext <;> simp <;> linarith
    · refine Or.inl ⟨k, 1 - m, k0, k1, by linarith, by linarith, ?_⟩
      ext <;> simp <;> linarith
    · refine Or.inr (Or.inl ⟨k, m, k0, k1, by linarith, by linarith, ?_⟩)
      ext <;> simp <;> linarith
    · refine Or.inr (Or.inr ⟨⟨x, y0, z0⟩, l, l0, l1, Or.inl ⟨k, by linarith, by linarith, ?_⟩, ?_⟩) <;>
        ext <;> simp <;> linarith
    · refine Or.inr (Or.inr ⟨⟨x, y0, z1⟩, l, l0, l1, Or.inr (Or.inr (Or.inl ⟨1 - k, by linarith, by linarith, ?_⟩)), ?_⟩) <;>
        ext <;> simp <;> linarith

/-- **C30.** For two corners that differ in all three coordinates, `Surface.box` gives surfaces that are
defined everywhere and whose points together are exactly the boundary of the box. -/
theorem C30_box {p0 p1 : V3} (hx : p0.x ≠ p1.x) (hy : p0.y ≠ p1.y) (hz : p0.z ≠ p1.z) :
    ∃ ss, Surface.box p0 p1 = some ss ∧ (∀ s ∈ ss, SurfaceDefined s) ∧
      ∀ q, (∃ s ∈ ss, surfacePoints s q) ↔ OnBox p0 p1 q := by
  have hx' := min_lt_max.2 hx
  have hy' := min_lt_max.2 hy
  have hz' := min_lt_max.2 hz
  obtain ⟨r, hr, gr, _, _, pr⟩ := loop_points (a := ⟨min p0.x p1.x, min p0.y p1.y, min p0.z p1.z⟩)
    (b := ⟨max p0.x p1.x, min p0.y p1.y, min p0.z p1.z⟩) (c := ⟨max p0.x p1.x, min p0.y p1.y, max p0.z p1.z⟩)
    (d := ⟨min p0.x p1.x, min p0.y p1.y, max p0.z p1.z⟩)
    (fun h => hx'.ne (congrArg V3.x h)) (fun h => hz'.ne (congrArg V3.z h)) (fun h => hx'.ne' (congrArg V3.x h))
    (fun h => hz'.ne' (congrArg V3.z h))
  have hw : (⟨0, max p0.y p1.y - min p0.y p1.y, 0⟩ : V3) ≠ 0 := by
    intro h; have := congrArg V3.y h; simp at this; linarith
  obtain ⟨dS, pS⟩ := extrude_points gr hw
  obtain ⟨t, ht, dT, pT⟩ := spanned_line_points (a := ⟨min p0.x p1.x, min p0.y p1.y, max p0.z p1.z⟩)
    (b := ⟨max p0.x p1.x, min p0.y p1.y, max p0.z p1.z⟩) (c := ⟨min p0.x p1.x, min p0.y p1.y, min p0.z p1.z⟩)
    (d := ⟨max p0.x p1.x, min p0.y p1.y, min p0.z p1.z⟩)
    (fun h => hx'.ne (congrArg V3.x h)) (fun h => hx'.ne (congrArg V3.x h)) (fun h => hz'.ne' (congrArg V3.z h))
  obtain ⟨b, hb, dB, pB⟩ := spanned_line_points (a := ⟨min p0.x p1.x, max p0.y p1.y, min p0.z p1.z⟩)
    (b := ⟨max p0.x p1.x, max p0.y p1.y, min p0.z p1.z⟩) (c := ⟨min p0.x p1.x, max p0.y p1.y, max p0.z p1.z⟩)
    (d := ⟨max p0.x p1.x, max p0.y p1.y, max p0.z p1.z⟩)
    (fun h => hx'.ne (congrArg V3.x h)) (fun h => hx'.ne (congrArg V3.x h)) (fun h => hz'.ne (congrArg V3.z h))
  refine ⟨[t, b, r.extrude ⟨0, max p0.y p1.y - min p0.y p1.y, 0⟩], ?_, ?_, fun q => ?_⟩
  · simp only [Option.bind_eq_some_iff] at hr
    obtain ⟨r1, h1, r2, h2, h3⟩ := hr
    simp [Surface.box, h1, h2, h3, ht, hb]
  · simp only [List.mem_cons, List.not_mem_nil, or_false, forall_eq_or_imp, forall_eq]
    exact ⟨dT, dB, dS⟩
  · simp only [List.mem_cons, List.not_mem_nil, or_false, exists_eq_or_imp, exists_eq_left]
    rw [box_points hx' hy' hz' q _ _ _ pT pB (fun q => by rw [pS]; simp only [pr])]
    unfold OnBox Between
    rw [minmax_or, minmax_or, minmax_or]
    tauto

/-- a point in the middle of a face -/
example : OnBox ⟨1, 2, 3⟩ ⟨-1, 0, 5⟩ ⟨0, 2, 4⟩ := by
  refine ⟨⟨?_, ?_⟩, ⟨?_, ?_⟩, ⟨?_, ?_⟩, Or.inr (Or.inr (Or.inl rfl))⟩ <;> norm_num

end Traceon
