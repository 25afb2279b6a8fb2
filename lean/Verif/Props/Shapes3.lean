import Verif.Props.Caps

/-!
# C64: apertures; C65: the edges of a surface
-/
namespace Traceon
open Spec V3

theorem move_points (p : Path) (d q : V3) : pathPoints (p.move d) q ↔ pathPoints p (q - d) := by
  unfold pathPoints Path.move Path.mapPoints
  constructor
  · rintro ⟨t, h0, h1, h⟩
    obtain ⟨a, ha, hb⟩ := Option.bind_eq_some_iff.1 h
    refine ⟨t, h0, h1, ?_⟩
    rw [ha, ← Option.some.inj hb]
    congr 1
    ext <;> simp
  · rintro ⟨t, h0, h1, h⟩
    refine ⟨t, h0, h1, ?_⟩
    simp only [h, Option.bind_some]
    congr 1
    ext <;> simp

/-- **C64** (aperture). For a positive height and a hole smaller than the extent, `Path.aperture` is a connected path in the xz-plane from the outer end of the
lower side to the outer end of the upper side. Its points are the two horizontal sides, at `z ± height/2`, from the radius of the hole to the extent, and the
vertical side at the radius of the hole between them. -/
theorem C64_aperture {height radius extent z : ℝ} (hh : 0 < height) (hr : radius < extent) :
    ∃ p, Path.aperture height radius extent z = some p ∧
      p.start = some ⟨extent, 0, z - height / 2⟩ ∧ p.endpoint = some ⟨extent, 0, z + height / 2⟩ ∧
      ∀ q, pathPoints p q ↔ q.y = 0 ∧
        ((radius ≤ q.x ∧ q.x ≤ extent ∧ (q.z = z - height / 2 ∨ q.z = z + height / 2)) ∨
          (q.x = radius ∧ z - height / 2 ≤ q.z ∧ q.z ≤ z + height / 2)) := by
  have n1 : (⟨extent, 0, -height / 2⟩ : V3) ≠ ⟨radius, 0, -height / 2⟩ := fun h => hr.ne' (congrArg V3.x h)
  have n2 : (⟨radius, 0, -height / 2⟩ : V3) ≠ ⟨radius, 0, height / 2⟩ := fun h => by have := congrArg V3.z h; simp at this; linarith
  have n3 : (⟨radius, 0, height / 2⟩ : V3) ≠ ⟨extent, 0, height / 2⟩ := fun h => hr.ne (congrArg V3.x h)
  obtain ⟨r1, h1, g1, s1, e1, q1⟩ := lineTo_points (line_good n1) (line_end n1) n2
  obtain ⟨r2, h2, g2, s2, e2, q2⟩ := lineTo_points g1 e1 n3
  refine ⟨r2.move ⟨0, 0, z⟩, by simp [Path.aperture, h1, h2], ?_, ?_, fun q => ?_⟩
  · have : r2.start = some ⟨extent, 0, -height / 2⟩ := by rw [s2, s1, line_start n1]
    unfold Path.start at this
    simp only [Path.start, Path.move, Path.mapPoints, this, Option.bind_some]
    congr 1
    ext <;> simp <;> ring
  · unfold Path.endpoint at e2
    simp only [Path.endpoint, Path.move, Path.mapPoints, e2, Option.bind_some]
    congr 1
    ext <;> simp <;> ring
  · rw [move_points, q2, q1, line_points n1]
    obtain ⟨x, y, w⟩ := q
    simp only
    constructor
    · rintro ((⟨m, m0, m1, h⟩ | ⟨m, m0, m1, h⟩) | ⟨m, m0, m1, h⟩)
      · have hx := congrArg V3.x h
        have hy := congrArg V3.y h
        have hz := congrArg V3.z h
        simp at hx hy hz
        refine ⟨hy, .inl ⟨by nlinarith, by nlinarith, .inl (by linarith)⟩⟩
      · have hx := congrArg V3.x h
        have hy := congrArg V3.y h
        have hz := congrArg V3.z h
        simp at hx hy hz
        refine ⟨hy, .inr ⟨by linarith, by nlinarith, by nlinarith⟩⟩
      · have hx := congrArg V3.x h
        have hy := congrArg V3.y h
        have hz := congrArg V3.z h
        simp at hx hy hz
        refine ⟨hy, .inl ⟨by nlinarith, by nlinarith, .inr (by linarith)⟩⟩
    · rintro ⟨rfl, (⟨h3, h4, (h5 | h5)⟩ | ⟨h3, h4, h5⟩)⟩
      · obtain ⟨m, m0, m1, hm⟩ := (between_iff hr).1 ⟨h3, h4⟩
        refine .inl (.inl ⟨1 - m, by linarith, by linarith, ?_⟩)
        ext <;> simp <;> linarith
      · obtain ⟨m, m0, m1, hm⟩ := (between_iff hr).1 ⟨h3, h4⟩
        refine .inr ⟨m, by linarith, by linarith, ?_⟩
        ext <;> simp <;> linarith
      · obtain ⟨m, m0, m1, hm⟩ := (between_iff (show z - height / 2 < z + height / 2 by linarith)).1 ⟨h4, h5⟩
        refine .inl (.inr ⟨m, by linarith, by linarith, ?_⟩)
        ext <;> simp <;> linarith

example : (0 : ℝ) < 0.2 ∧ (0.1 : ℝ) < 2 := by norm_num

/-- The points of the border of a surface: one of the parameters has its smallest or its largest value. -/
def Spec.borderPoints (s : Surface) (q : V3) : Prop :=
  ∃ u v, 0 ≤ u ∧ u ≤ s.length1 ∧ 0 ≤ v ∧ v ≤ s.length2 ∧ (u = 0 ∨ u = s.length1 ∨ v = 0 ∨ v = s.length2) ∧ s.func u v = some q

/-- **C65** (edges). The boundary paths of a surface consist of points of its border; if no edge is closed, they consist of all the points of
its border; if some edge is closed, a point of the border is on a boundary path unless it is on an open edge. -/
theorem C65_edges {s : Surface} (h1 : 0 ≤ s.length1) (h2 : 0 ≤ s.length2) {b : List Path} (hb : s.boundaryPaths = some b) :
    (∀ p ∈ b, ∀ q, pathPoints p q → borderPoints s q) ∧
    ((∀ p ∈ b, p.isClosed = some false) → ∀ q, borderPoints s q → ∃ p ∈ b, pathPoints p q) ∧
    ((∃ p ∈ b, p.isClosed = some true) → ∀ q, borderPoints s q → (∃ p ∈ b, pathPoints p q) ∨
      ∃ p ∈ s.edgePaths, p.isClosed = some false ∧ pathPoints p q) := by
  have edge : ∀ p ∈ s.edgePaths, ∀ q, pathPoints p q → borderPoints s q := by
    intro p hp q ⟨t, t0, t1, ht⟩
    simp only [Surface.edgePaths, List.mem_cons, List.not_mem_nil, or_false] at hp
    rcases hp with rfl | rfl | rfl | rfl
    · exact ⟨t, 0, t0, t1, le_rfl, h2, .inr (.inr (.inl rfl)), ht⟩
    · exact ⟨t, s.length2, t0, t1, h2, le_rfl, .inr (.inr (.inr rfl)), ht⟩
    · exact ⟨0, t, le_rfl, h1, t0, t1, .inl rfl, ht⟩
    · exact ⟨s.length1, t, h1, le_rfl, t0, t1, .inr (.inl rfl), ht⟩
  have all : ∀ q, borderPoints s q → ∃ p ∈ s.edgePaths, pathPoints p q := by
    rintro q ⟨u, v, u0, u1, v0, v1, h, hq⟩
    rcases h with rfl | rfl | rfl | rfl
    · exact ⟨_, List.mem_of_getElem? (i := 2) rfl, v, v0, v1, hq⟩
    · exact ⟨_, List.mem_of_getElem? (i := 3) rfl, v, v0, v1, hq⟩
    · exact ⟨_, List.mem_of_getElem? (i := 0) rfl, u, u0, u1, hq⟩
    · exact ⟨_, List.mem_of_getElem? (i := 1) rfl, u, u0, u1, hq⟩
  refine ⟨fun p hp => edge p (boundary_mem hb hp), ?_⟩
  unfold Surface.boundaryPaths at hb
  cases h : s.edgePaths.mapM (fun p => p.isClosed) with
  | none => rw [h] at hb; cases hb
  | some c =>
    rw [h] at hb
    simp only [Option.bind_eq_bind, Option.bind_some] at hb
    have hlen := mapM_length h
    have hget : ∀ (k : ℕ) p, s.edgePaths[k]? = some p → p.isClosed = c[k]? := by
      intro k p hp
      have := mapM_getElem? h k
      rw [hp] at this
      exact this.symm
    by_cases hany : c.any id = true
    · rw [if_pos hany] at hb
      have hb' : compress c s.edgePaths = b := Option.some.inj hb
      have mem : ∀ p, p ∈ b ↔ ∃ k : ℕ, c[k]? = some true ∧ s.edgePaths[k]? = some p := by
        intro p; rw [← hb']; exact mem_compress (by rw [hlen])
      constructor
      · intro hno q _
        exfalso
        obtain ⟨x, hx, hx'⟩ := List.any_eq_true.1 hany
        simp only [id] at hx'
        subst hx'
        obtain ⟨k, hk⟩ := List.getElem?_of_mem hx
        have hkl := (List.getElem?_eq_some_iff.1 hk).1
        have hp : s.edgePaths[k]? = some (s.edgePaths[k]'(by omega)) := List.getElem?_eq_getElem (by omega)
        have := hno _ ((mem _).2 ⟨k, hk, hp⟩)
        rw [hget k _ hp, hk] at this
        cases this
      · intro _ q hq
        obtain ⟨p, hp, hpq⟩ := all q hq
        obtain ⟨k, hk⟩ := List.getElem?_of_mem hp
        have hkl := (List.getElem?_eq_some_iff.1 hk).1
        have hc : c[k]? = some (c[k]'(by omega)) := List.getElem?_eq_getElem (by omega)
        have hcl := hget k p hk
        rw [hc] at hcl
        cases hv : c[k]'(by omega) with
        | true => exact .inl ⟨p, (mem p).2 ⟨k, by rw [hc, hv], hk⟩, hpq⟩
        | false => exact .inr ⟨p, hp, by rw [hcl, hv], hpq⟩
    · rw [if_neg hany] at hb
      have hb' : s.edgePaths = b := Option.some.inj hb
      subst hb'
      exact ⟨fun _ q hq => all q hq, fun _ q hq => .inl (all q hq)⟩

/-- the unit square: no edge is closed -/
example : ∃ b, exUnitSquare.boundaryPaths = some b ∧ 0 ≤ exUnitSquare.length1 ∧ 0 ≤ exUnitSquare.length2 :=
  ⟨_, exUnitSquare_boundary, by simp [exUnitSquare], by simp [exUnitSquare]⟩

end Traceon
