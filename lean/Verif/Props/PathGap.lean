import Verif.Props.Paths2

/-! # C21, C24: how far apart the ends of joined and of closed paths may be -/
namespace Traceon
open Spec V3

/-- **C21**, the tolerance: two paths are joined exactly when in each coordinate the end of the first
and the start of the second differ by at most `10⁻⁸ + 10⁻⁵·|c|`, `c` the coordinate of the start of the
second; so a joined path jumps by no more than this. -/
theorem C21_join_gap {p q : Path} {a b : V3} (ha : p.endpoint = some a) (hb : q.start = some b) :
    (∃ r, p.join q = some r) ↔
      |a.x - b.x| ≤ 1 / 10 ^ 8 + |b.x| / 10 ^ 5 ∧ |a.y - b.y| ≤ 1 / 10 ^ 8 + |b.y| / 10 ^ 5 ∧ |a.z - b.z| ≤ 1 / 10 ^ 8 + |b.z| / 10 ^ 5 := by
  have key : ∀ u v : ℝ, (u ≤ 1e-8 + 1e-5 * v) ↔ u ≤ 1 / 10 ^ 8 + v / 10 ^ 5 := by
    intro u v
    rw [show (1e-8 : ℝ) + 1e-5 * v = 1 / 10 ^ 8 + v / 10 ^ 5 by norm_num; ring]
  have hc : pointsClose a b = true ↔
      |a.x - b.x| ≤ 1 / 10 ^ 8 + |b.x| / 10 ^ 5 ∧ |a.y - b.y| ≤ 1 / 10 ^ 8 + |b.y| / 10 ^ 5 ∧ |a.z - b.z| ≤ 1 / 10 ^ 8 + |b.z| / 10 ^ 5 := by
    simp only [pointsClose, decide_eq_true_eq, key]
  rw [← hc]
  constructor
  · rintro ⟨r, hr⟩
    cases h : pointsClose a b with
    | true => rfl
    | false =>
      simp [Path.join, ha, hb, h] at hr
  · intro h
    obtain ⟨r, hr, _⟩ := join_some ha hb h
    exact ⟨r, hr⟩

/-- the same tolerance decides whether a path is closed -/
theorem C24_closed_gap {p : Path} {a b : V3} (ha : p.start = some a) (hb : p.endpoint = some b) :
    p.isClosed = some true ↔
      |a.x - b.x| ≤ 1 / 10 ^ 8 + |b.x| / 10 ^ 5 ∧ |a.y - b.y| ≤ 1 / 10 ^ 8 + |b.y| / 10 ^ 5 ∧ |a.z - b.z| ≤ 1 / 10 ^ 8 + |b.z| / 10 ^ 5 := by
  have key : ∀ u v : ℝ, (u ≤ 1e-8 + 1e-5 * v) ↔ u ≤ 1 / 10 ^ 8 + v / 10 ^ 5 := by
    intro u v
    rw [show (1e-8 : ℝ) + 1e-5 * v = 1 / 10 ^ 8 + v / 10 ^ 5 by norm_num; ring]
  simp [Path.isClosed, ha, hb, pointsClose, key]

/-- two straight lines with a gap of `10⁻⁹` at the joint are joined; with a gap of `1` they are not -/
theorem C21_gap_example :
    (∃ r, (Path.mk (fun t => some ⟨t, 0, 0⟩) 1 [] none).join (Path.mk (fun t => some ⟨1, 0, t + 1 / 10 ^ 9⟩) 1 [] none) = some r) ∧
    ¬ ∃ r, (Path.mk (fun t => some ⟨t, 0, 0⟩) 1 [] none).join (Path.mk (fun t => some ⟨1, 0, t + 1⟩) 1 [] none) = some r := by
  constructor
  · rw [C21_join_gap (a := ⟨1, 0, 0⟩) (b := ⟨1, 0, 0 + 1 / 10 ^ 9⟩) rfl rfl]
    refine ⟨?_, ?_, ?_⟩ <;> norm_num
  · rw [C21_join_gap (a := ⟨1, 0, 0⟩) (b := ⟨1, 0, 0 + 1⟩) rfl rfl]
    rintro ⟨_, _, h⟩
    norm_num at h

end Traceon
