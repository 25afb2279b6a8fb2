import Verif.Props.Transform

/-!
# Theorems about surfaces: C28, C29, C30
-/
namespace Traceon
open Spec V3

/-! ## C28 -/

/-- **C28**, extrusion along a (non-zero) vector: starts at the path, ends at the path moved by the
vector, and moves in proportion to `v`. -/
theorem C28_extrude (p : Path) {w : V3} (hw : w ≠ 0) :
    (p.extrude w).length1 = p.length ∧ (p.extrude w).length2 = V3.norm w ∧ (p.extrude w).breaks1 = p.breaks ∧
    ∀ u q, p.func u = some q → (p.extrude w).func u 0 = some q ∧
      (p.extrude w).func u (p.extrude w).length2 = (p.move w).func u ∧
      ∀ v, ∃ q', (p.extrude w).func u v = some q' ∧ q' - q = (v / V3.norm w) * w ∧ Spec.dist q' q = |v| := by
  have hn := norm_pos hw
  have key : ∀ u q v, p.func u = some q → (p.extrude w).func u v = some (q + (v / V3.norm w) * w) := by
    intro u q v hq; simp [Path.extrude, hq, safeDiv, hn.ne']
  refine ⟨rfl, rfl, rfl, fun u q hq => ⟨?_, ?_, ?_⟩⟩
  · rw [key u q 0 hq]; congr 1; ext <;> simp
  · have : (p.extrude w).length2 = V3.norm w := rfl
    rw [this, key u q _ hq, div_self hn.ne']
    simp only [Path.move, Path.mapPoints, hq, Option.bind_some, Option.some.injEq]
    ext <;> simp
  · intro v
    have hd : q + (v / V3.norm w) * w - q = (v / V3.norm w) * w := by ext <;> simp
    refine ⟨_, key u q v hq, hd, ?_⟩
    unfold Spec.dist
    rw [hd, norm_smul', abs_div, abs_of_pos hn, div_mul_cancel₀ _ hn.ne']

/-- **C28**, extrusion along a path: starts at the path, and the copy at `v` is the path moved by
`p2(v) - p2(0)`. -/
theorem C28_extrude_by_path {p p2 : Path} {a : V3} (ha : p2.start = some a) :
    ∃ s, p.extrudeByPath p2 = some s ∧ s.length1 = p.length ∧ s.length2 = p2.length ∧ s.breaks1 = p.breaks ∧
      s.breaks2 = p2.breaks ∧
      ∀ u q, p.func u = some q → s.func u 0 = some q ∧
        ∀ v r, p2.func v = some r → s.func u v = (p.move (r - a)).func u := by
  have hf : p.extrudeByPath p2 = some { func := fun u v => do return (← p.func u) + (← p2.func v) - a
                                        length1 := p.length, length2 := p2.length, breaks1 := p.breaks
                                        breaks2 := p2.breaks, name := p.name } := by
    simp [Path.extrudeByPath, ha]
  refine ⟨_, hf, rfl, rfl, rfl, rfl, fun u q hq => ⟨?_, ?_⟩⟩
  · have ha' : p2.func 0 = some a := ha
    simp only [hq, ha', Option.bind_eq_bind, Option.bind_some, Option.pure_def, Option.some.injEq]
    ext <;> simp
  · intro v r hr
    simp only [hq, hr, Option.bind_eq_bind, Option.bind_some, Option.pure_def, Path.move, Path.mapPoints,
      Option.some.injEq]
    ext <;> simp <;> ring

/-- **C28**, the surface between two paths of positive length that do not share both their start and their
end: opposite edges are the two paths (at proportional lengths), points in between are on the straight
line, and the corners of both paths are breakpoints, in ascending order. -/
theorem C28_spanned_partial {p1 p2 : Path} (h1 : GoodPath p1) (h2 : GoodPath p2) (l1 : 0 < p1.length)
    (l2 : 0 < p2.length) (hne : p1.start ≠ p2.start ∨ p1.endpoint ≠ p2.endpoint) :
    ∃ s, Surface.spannedByPaths p1 p2 = some s ∧ 0 < s.length1 ∧ 0 < s.length2 ∧
      (∀ k, 0 ≤ k → k ≤ 1 →
        s.func (k * s.length1) 0 = p1.func (k * p1.length) ∧
        s.func (k * s.length1) s.length2 = p2.func (k * p2.length)) ∧
      (∀ k q1 q2, p1.func (k * p1.length) = some q1 → p2.func (k * p2.length) = some q2 → ∀ m,
        s.func (k * s.length1) (m * s.length2) = some ((1 - m) * q1 + m * q2)) ∧
      s.breaks1.Pairwise (· ≤ ·) ∧ s.breaks1.length = p1.breaks.length + p2.breaks.length ∧
      (∀ b ∈ p1.breaks, ∃ c ∈ s.breaks1, s.func c 0 = p1.func b) ∧
      (∀ b ∈ p2.breaks, ∃ c ∈ s.breaks1, s.func c s.length2 = p2.func b) := by
  obtain ⟨a1, ha1⟩ := h1.defined 0 le_rfl h1.len
  obtain ⟨a2, ha2⟩ := h2.defined 0 le_rfl h2.len
  obtain ⟨b1, hb1⟩ := h1.defined p1.length h1.len le_rfl
  obtain ⟨b2, hb2⟩ := h2.defined p2.length h2.len le_rfl
  set L := max p1.length p2.length with hL
  set M := (V3.norm (a1 - a2) + V3.norm (b1 - b2)) / 2 with hM
  have hLpos : 0 < L := lt_of_lt_of_le l1 (le_max_left _ _)
  have hMpos : 0 < M := by
    have n1 := norm_nonneg' (a1 - a2)
    have n2 := norm_nonneg' (b1 - b2)
    rcases hne with h | h
    · have : a1 ≠ a2 := fun e => h (by rw [Path.start, Path.start, ha1, ha2, e])
      have := norm_sub_pos this
      positivity
    · have : b1 ≠ b2 := fun e => h (by rw [Path.endpoint, Path.endpoint, hb1, hb2, e])
      have := norm_sub_pos this
      positivity
  have hf : Surface.spannedByPaths p1 p2 = some
      (Surface.mk (fun u v => do
             let r ← safeDiv u L
             let q1 ← p1.func (r * p1.length)
             let q2 ← p2.func (r * p2.length)
             let k ← safeDiv v M
             return (1 - k) * q1 + k * q2) L M
           (pySorted (p1.breaks.map (fun b => L * b / p1.length) ++ p2.breaks.map (fun b => L * b / p2.length))) [] none) := by
    simp [Surface.spannedByPaths, Path.start, Path.endpoint, ha1, ha2, hb1, hb2, hL, hM]
  have key : ∀ k q1 q2, p1.func (k * p1.length) = some q1 → p2.func (k * p2.length) = some q2 → ∀ m,
      (do
             let r ← safeDiv (k * L) L
             let q1 ← p1.func (r * p1.length)
             let q2 ← p2.func (r * p2.length)
             let k ← safeDiv (m * M) M
             return (1 - k) * q1 + k * q2 : Option V3) = some ((1 - m) * q1 + m * q2) := by
    intro k q1 q2 hq1 hq2 m
    simp [safeDiv, hLpos.ne', hMpos.ne', hq1, hq2]
  have edges : ∀ k, 0 ≤ k → k ≤ 1 → ∃ q1 q2, p1.func (k * p1.length) = some q1 ∧ p2.func (k * p2.length) = some q2 := by
    intro k hk0 hk1
    obtain ⟨q1, hq1⟩ := h1.defined (k * p1.length) (by positivity) (by nlinarith)
    obtain ⟨q2, hq2⟩ := h2.defined (k * p2.length) (by positivity) (by nlinarith)
    exact ⟨q1, q2, hq1, hq2⟩
  have edge1 : ∀ k, 0 ≤ k → k ≤ 1 → (do
             let r ← safeDiv (k * L) L
             let q1 ← p1.func (r * p1.length)
             let q2 ← p2.func (r * p2.length)
             let k ← safeDiv 0 M
             return (1 - k) * q1 + k * q2 : Option V3) = p1.func (k * p1.length) := by
    intro k hk0 hk1
    obtain ⟨q1, q2, hq1, hq2⟩ := edges k hk0 hk1
    have := key k q1 q2 hq1 hq2 0
    rw [zero_mul] at this
    rw [this, hq1]; congr 1; ext <;> simp
  have edge2 : ∀ k, 0 ≤ k → k ≤ 1 → (do
             let r ← safeDiv (k * L) L
             let q1 ← p1.func (r * p1.length)
             let q2 ← p2.func (r * p2.length)
             let k ← safeDiv M M
             return (1 - k) * q1 + k * q2 : Option V3) = p2.func (k * p2.length) := by
    intro k hk0 hk1
    obtain ⟨q1, q2, hq1, hq2⟩ := edges k hk0 hk1
    have := key k q1 q2 hq1 hq2 1
    rw [one_mul] at this
    rw [this, hq2]; congr 1; ext <;> simp
  refine ⟨_, hf, hLpos, hMpos, fun k hk0 hk1 => ⟨edge1 k hk0 hk1, edge2 k hk0 hk1⟩, key, pySorted_pairwise _, ?_, ?_, ?_⟩
  · show (pySorted _).length = _
    rw [(pySorted_perm _).length_eq]; simp
  · intro b hb
    have hi := h1.inside b hb
    refine ⟨L * b / p1.length, (pySorted_perm _).mem_iff.2 (by simp only [List.mem_append, List.mem_map]; exact Or.inl ⟨b, hb, rfl⟩), ?_⟩
    have := edge1 (b / p1.length) (div_nonneg hi.1 l1.le) (by rw [div_le_one l1]; exact hi.2)
    rw [show b / p1.length * L = L * b / p1.length by ring, div_mul_cancel₀ _ l1.ne'] at this
    exact this
  · intro b hb
    have hi := h2.inside b hb
    refine ⟨L * b / p2.length, (pySorted_perm _).mem_iff.2 (by simp only [List.mem_append, List.mem_map]; exact Or.inr ⟨b, hb, rfl⟩), ?_⟩
    have := edge2 (b / p2.length) (div_nonneg hi.1 l2.le) (by rw [div_le_one l2]; exact hi.2)
    rw [show b / p2.length * L = L * b / p2.length by ring, div_mul_cancel₀ _ l2.ne'] at this
    exact this

example : GoodPath exFirst ∧ GoodPath exCorner ∧ 0 < exFirst.length ∧ 0 < exCorner.length ∧
    exFirst.start ≠ exCorner.start := by
  refine ⟨C22_refuted.1, C22_refuted.2.1, by rw [exFirst_len]; norm_num, by simp [exCorner], ?_⟩
  rw [exFirst, line_start exFirst_ne]
  simp only [Path.start, exCorner]
  intro h
  have := congrArg (fun o => Option.map V3.x o) h
  norm_num at this

/-- **C28 is false for two paths with common end points** (a lens shaped region): the second length is
zero and no point is defined. -/
theorem C28_spanned_refuted (p1 p2 : Path) (s : Surface) (hs : p1.start = p2.start)
    (he : p1.endpoint = p2.endpoint) (h : Surface.spannedByPaths p1 p2 = some s) (u v : ℝ) :
    s.func u v = none := by
  simp only [Surface.spannedByPaths, Option.bind_eq_bind, Option.bind_eq_some_iff] at h
  obtain ⟨a1, ha1, a2, ha2, b1, hb1, b2, hb2, h⟩ := h
  rw [hs, ha2] at ha1
  rw [he, hb2] at hb1
  cases ha1; cases hb1
  have hz : ∀ a : V3, V3.norm (a - a) = 0 := by intro a; simp [V3.norm, dot]
  simp only [Option.pure_def, Option.some.injEq] at h
  rw [← h]
  simp only [hz, add_zero, zero_div, safeDiv]
  cases (open Classical in if max p1.length p2.length = 0 then none else some (u / max p1.length p2.length) : Option ℝ) with
  | none => rfl
  | some r =>
    simp only [Option.bind_some]
    cases p1.func (r * p1.length) with
    | none => rfl
    | some q1 =>
      cases p2.func (r * p2.length) with
      | none => rfl
      | some q2 => simp

/-- such a pair: two copies of the same line -/
example : ∃ s, Surface.spannedByPaths exFirst exFirst = some s := by
  simp [Surface.spannedByPaths, exFirst, line_start exFirst_ne, line_end exFirst_ne]

/-! ## C29 -/

/-- A path traversed with the same parameter as a straight line. -/
def Spec.Straight (p : Path) : Prop :=
  ∃ a b : V3, ∀ k : ℝ, 0 ≤ k → k ≤ 1 → p.func (k * p.length) = some ((1 - k) * a + k * b)

/-- The claim of C29: the four edges of `s`, traversed in order, are the four paths. -/
def Spec.HasBoundary (s : Surface) (p1 p2 p3 p4 : Path) : Prop :=
  ∀ k, 0 ≤ k → k ≤ 1 →
    s.func (k * s.length1) 0 = p1.func (k * p1.length) ∧
    s.func s.length1 (k * s.length2) = p2.func (k * p2.length) ∧
    s.func ((1 - k) * s.length1) s.length2 = p3.func (k * p3.length) ∧
    s.func 0 ((1 - k) * s.length2) = p4.func (k * p4.length)

/-- The corners match. -/
def Spec.CornersMatch (p1 p2 p3 p4 : Path) : Prop :=
  p1.endpoint = p2.start ∧ p2.endpoint = p3.start ∧ p3.endpoint = p4.start ∧ p4.endpoint = p1.start

theorem fromBoundary_func {p1 p2 p3 p4 : Path} (l1 : 0 < p1.length) (l2 : 0 < p2.length) (l3 : 0 < p3.length)
    (l4 : 0 < p4.length) {u v : ℝ} {q1 q2 q3 q4 : V3} (h1 : p1.func (u * p1.length) = some q1)
    (h2 : p2.func (v * p2.length) = some q2) (h3 : p3.func ((1 - u) * p3.length) = some q3)
    (h4 : p4.func ((1 - v) * p4.length) = some q4) :
    (Surface.fromBoundaryPaths p1 p2 p3 p4).func (u * (Surface.fromBoundaryPaths p1 p2 p3 p4).length1)
      (v * (Surface.fromBoundaryPaths p1 p2 p3 p4).length2)
      = some ((1 / 2 : ℝ) * ((1 - v) * q1 + (1 - u) * q4 + v * q3 + u * q2)) := by
  have e1 : (p1.length + p3.length) / 2 ≠ 0 := by positivity
  have e2 : (p2.length + p4.length) / 2 ≠ 0 := by positivity
  simp [Surface.fromBoundaryPaths, safeDiv, e1, e2, h1, h2, h3, h4]

/-- **C29**, the part that holds: the four corners are right for any paths with matching corners, and if the
four paths are straight lines, the edges of the surface are the four paths. -/
theorem C29_boundary_partial {p1 p2 p3 p4 : Path} (g1 : GoodPath p1) (g2 : GoodPath p2) (g3 : GoodPath p3)
    (g4 : GoodPath p4) (l1 : 0 < p1.length) (l2 : 0 < p2.length) (l3 : 0 < p3.length) (l4 : 0 < p4.length)
    (hc : CornersMatch p1 p2 p3 p4) :
    ((Surface.fromBoundaryPaths p1 p2 p3 p4).func 0 0 = p1.start ∧
     (Surface.fromBoundaryPaths p1 p2 p3 p4).func (Surface.fromBoundaryPaths p1 p2 p3 p4).length1 0 = p2.start ∧
     (Surface.fromBoundaryPaths p1 p2 p3 p4).func (Surface.fromBoundaryPaths p1 p2 p3 p4).length1
        (Surface.fromBoundaryPaths p1 p2 p3 p4).length2 = p3.start ∧
     (Surface.fromBoundaryPaths p1 p2 p3 p4).func 0 (Surface.fromBoundaryPaths p1 p2 p3 p4).length2 = p4.start) ∧
    (Straight p1 → Straight p2 → Straight p3 → Straight p4 →
      HasBoundary (Surface.fromBoundaryPaths p1 p2 p3 p4) p1 p2 p3 p4) := by
  obtain ⟨hc1, hc2, hc3, hc4⟩ := hc
  obtain ⟨c1, hs1⟩ := g1.defined 0 le_rfl g1.len
  obtain ⟨c2, hs2⟩ := g2.defined 0 le_rfl g2.len
  obtain ⟨c3, hs3⟩ := g3.defined 0 le_rfl g3.len
  obtain ⟨c4, hs4⟩ := g4.defined 0 le_rfl g4.len
  have he1 : p1.func p1.length = some c2 := hc1.trans hs2
  have he2 : p2.func p2.length = some c3 := hc2.trans hs3
  have he3 : p3.func p3.length = some c4 := hc3.trans hs4
  have he4 : p4.func p4.length = some c1 := hc4.trans hs1
  constructor
  · refine ⟨?_, ?_, ?_, ?_⟩
    · have := fromBoundary_func l1 l2 l3 l4 (u := 0) (v := 0) (by simpa using hs1) (by simpa using hs2)
        (by simpa using he3) (by simpa using he4)
      simp only [zero_mul] at this
      rw [this, Path.start, hs1]; congr 1; ext <;> simp <;> ring
    · have := fromBoundary_func l1 l2 l3 l4 (u := 1) (v := 0) (by simpa using he1) (by simpa using hs2)
        (by simpa using hs3) (by simpa using he4)
      simp only [zero_mul, one_mul] at this
      rw [this, Path.start, hs2]; congr 1; ext <;> simp <;> ring
    · have := fromBoundary_func l1 l2 l3 l4 (u := 1) (v := 1) (by simpa using he1) (by simpa using he2)
        (by simpa using hs3) (by simpa using hs4)
      simp only [one_mul] at this
      rw [this, Path.start, hs3]; congr 1; ext <;> simp <;> ring
    · have := fromBoundary_func l1 l2 l3 l4 (u := 0) (v := 1) (by simpa using hs1) (by simpa using he2)
        (by simpa using he3) (by simpa using hs4)
      simp only [zero_mul, one_mul] at this
      rw [this, Path.start, hs4]; congr 1; ext <;> simp <;> ring
  · have ends : ∀ (p : Path) (a b : V3), (∀ k, 0 ≤ k → k ≤ 1 → p.func (k * p.length) = some ((1 - k) * a + k * b)) →
        ∀ s e, p.func 0 = some s → p.func p.length = some e → a = s ∧ b = e := by
      intro p a b h s e hs he
      have h0 := h 0 le_rfl zero_le_one
      have h1 := h 1 zero_le_one le_rfl
      rw [zero_mul, hs] at h0
      rw [one_mul, he] at h1
      simp only [Option.some.injEq] at h0 h1
      rw [h0, h1]
      constructor <;> ext <;> simp
    rintro ⟨a1, b1, f1⟩ ⟨a2, b2, f2⟩ ⟨a3, b3, f3⟩ ⟨a4, b4, f4⟩
    obtain ⟨rfl, rfl⟩ := ends p1 a1 b1 f1 _ _ hs1 he1
    obtain ⟨rfl, rfl⟩ := ends p2 a2 b2 f2 _ _ hs2 he2
    obtain ⟨rfl, rfl⟩ := ends p3 a3 b3 f3 _ _ hs3 he3
    obtain ⟨rfl, rfl⟩ := ends p4 a4 b4 f4 _ _ hs4 he4
    intro k hk0 hk1
    have hk0' : 0 ≤ 1 - k := by linarith
    have hk1' : 1 - k ≤ 1 := by linarith
    have hkk : 1 - (1 - k) = k := by ring
    refine ⟨?_, ?_, ?_, ?_⟩
    · have := fromBoundary_func l1 l2 l3 l4 (u := k) (v := 0) (f1 k hk0 hk1) (by simpa using hs2)
        (f3 (1 - k) hk0' hk1') (by simpa using he4)
      rw [zero_mul] at this
      rw [this, f1 k hk0 hk1]; congr 1; ext <;> simp <;> ring
    · have := fromBoundary_func l1 l2 l3 l4 (u := 1) (v := k) (by simpa using he1) (f2 k hk0 hk1)
        (by simpa using hs3) (f4 (1 - k) hk0' hk1')
      rw [one_mul] at this
      rw [this, f2 k hk0 hk1]; congr 1; ext <;> simp <;> ring
    · have := fromBoundary_func l1 l2 l3 l4 (u := 1 - k) (v := 1) (f1 (1 - k) hk0' hk1') (by simpa using he2)
        (by rw [hkk]; exact f3 k hk0 hk1) (by simpa using hs4)
      rw [one_mul] at this
      rw [this, f3 k hk0 hk1]; congr 1; ext <;> simp <;> ring
    · have := fromBoundary_func l1 l2 l3 l4 (u := 0) (v := 1 - k) (by simpa using hs1) (f2 (1 - k) hk0' hk1')
        (by simpa using he3) (by rw [hkk]; exact f4 k hk0 hk1)
      rw [zero_mul] at this
      rw [this, f4 k hk0 hk1]; congr 1; ext <;> simp <;> ring

/-- the sides of the unit square in the (x, y)-plane, the first one possibly bulging out -/
noncomputable def exSide1 (h : ℝ) : Path := { func := fun t => some ⟨t, 0, h * t * (1 - t)⟩, length := 1 }
noncomputable def exSide2 : Path := { func := fun t => some ⟨1, t, 0⟩, length := 1 }
noncomputable def exSide3 : Path := { func := fun t => some ⟨1 - t, 1, 0⟩, length := 1 }
noncomputable def exSide4 : Path := { func := fun t => some ⟨0, 1 - t, 0⟩, length := 1 }

theorem exSides_match (h : ℝ) : CornersMatch (exSide1 h) exSide2 exSide3 exSide4 := by
  simp [CornersMatch, Path.start, Path.endpoint, exSide1, exSide2, exSide3, exSide4]

example : GoodPath (exSide1 0) ∧ GoodPath exSide2 ∧ Straight (exSide1 0) ∧ Straight exSide3 := by
  refine ⟨⟨by simp [exSide1], by simp [exSide1], by simp [exSide1], fun u _ _ => ⟨_, rfl⟩⟩,
    ⟨by simp [exSide2], by simp [exSide2], by simp [exSide2], fun u _ _ => ⟨_, rfl⟩⟩,
    ⟨0, ⟨1, 0, 0⟩, ?_⟩, ⟨⟨1, 1, 0⟩, ⟨0, 1, 0⟩, ?_⟩⟩ <;> intro k _ _
  · simp only [exSide1, Option.some.injEq]; ext <;> simp
  · simp only [exSide3, Option.some.injEq]; ext <;> simp

/-- **C29 is false for curved boundaries**: with one bulging side, the edge of the surface bulges only half
as far. -/
theorem C29_refuted : CornersMatch (exSide1 1) exSide2 exSide3 exSide4 ∧
    ¬ HasBoundary (Surface.fromBoundaryPaths (exSide1 1) exSide2 exSide3 exSide4) (exSide1 1) exSide2 exSide3 exSide4 := by
  refine ⟨exSides_match 1, fun h => ?_⟩
  have h1 := (h (1/2) (by norm_num) (by norm_num)).1
  have h2 := fromBoundary_func (p1 := exSide1 1) (p2 := exSide2) (p3 := exSide3) (p4 := exSide4) (by simp [exSide1])
    (by simp [exSide2]) (by simp [exSide3]) (by simp [exSide4]) (u := 1/2) (v := 0) rfl rfl rfl rfl
  rw [zero_mul, h1] at h2
  simp only [exSide1, Option.some.injEq] at h2
  have := congrArg V3.z h2
  simp at this
  norm_num at this

end Traceon
