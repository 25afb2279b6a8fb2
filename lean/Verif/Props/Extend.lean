import Verif.Props.Arcs
import Verif.Props.Shapes

/-!
# C82: extending a path
-/
namespace Traceon
open Spec V3

/-- **C82**, `line_to`: the path is followed to its end `a` and then along the segment to `b`; the corner is a breakpoint. -/
theorem C82_line {p : Path} (hp : GoodPath p) {a b : V3} (ha : p.endpoint = some a) (hab : a ≠ b) :
    ∃ r, p.lineTo b = some r ∧ GoodPath r ∧ r.length = p.length + Spec.dist a b ∧ r.start = p.start ∧ r.endpoint = some b ∧
      r.breaks = p.breaks ++ [p.length] ∧ r.func p.length = some a ∧ (∀ t, 0 ≤ t → t ≤ p.length → r.func t = p.func t) ∧
      ∀ q, pathPoints r q ↔ pathPoints p q ∨ segment a b q := by
  obtain ⟨r, h1, h2, h3, h4, h5, h6, _, h8, _, h10, _⟩ := C22_line_to hp ha hab
  obtain ⟨r', h1', _, _, _, h5'⟩ := lineTo_points hp ha hab
  rw [h1] at h1'
  cases h1'
  exact ⟨r, h1, h2, h3, h4, h5, h6, h8, h10, h5'⟩

/-- **C82**, `close`: an open path becomes a closed one by adding the segment from its end to its start. -/
theorem C82_close {p : Path} (hp : GoodPath p) {a b : V3} (ha : p.endpoint = some a) (hb : p.start = some b) (hab : a ≠ b) :
    ∃ r, p.close = some r ∧ GoodPath r ∧ r.length = p.length + Spec.dist a b ∧ r.start = some b ∧ r.endpoint = some b ∧ r.isClosed = some true ∧
      r.breaks = p.breaks ++ [p.length] ∧ (∀ t, 0 ≤ t → t ≤ p.length → r.func t = p.func t) ∧ ∀ q, pathPoints r q ↔ pathPoints p q ∨ segment a b q := by
  obtain ⟨r, h1, h2, h3, h4, h5, h6, h7, h8, h9⟩ := C82_line hp ha hab
  refine ⟨r, by simp [Path.close, hb, h1], h2, h3, h4.trans hb, h5, ?_, h6, h8, h9⟩
  unfold Path.isClosed
  rw [h4, hb, h5]
  simp [pointsClose_self]

/-- **C82**, `arc_to`: the path is followed to its end `a` and then along the arc about `c` (short way round, or long way with `reverse`), which stays at the distance of `a` from the
centre and ends on the ray from `c` through `b`, hence in `b` if `b` is as far from `c` as `a`. The corner is a breakpoint. -/
theorem C82_arc {p : Path} (hp : GoodPath p) {a b c : V3} (ha : p.endpoint = some a) (hx : cross (a - c) (b - c) ≠ 0) (reverse : Bool) :
    ∃ r φ, p.arcTo c b reverse = some r ∧ GoodPath r ∧ 0 < φ ∧ φ < Real.pi ∧ Real.cos φ = dot (a - c) (b - c) / (Spec.dist a c * Spec.dist b c) ∧
      r.length = p.length + Spec.dist a c * (if reverse then 2 * Real.pi - φ else φ) ∧ r.start = p.start ∧
      (∃ E, r.endpoint = some E ∧ E - c = (Spec.dist a c / Spec.dist b c) * (b - c) ∧ (Spec.dist b c = Spec.dist a c → E = b)) ∧
      r.breaks = p.breaks ++ [p.length] ∧ r.func p.length = some a ∧ (∀ t, 0 ≤ t → t ≤ p.length → r.func t = p.func t) ∧
      ∀ s t, p.length ≤ s → s ≤ r.length → p.length ≤ t → t ≤ r.length → ∃ P Q, r.func s = some P ∧ r.func t = some Q ∧
        Spec.dist P c = Spec.dist a c ∧ Spec.dist P Q = Spec.chord (Spec.dist a c) (s - t) := by
  obtain ⟨φ, k1, k2, k3, k4, k5, ⟨E, k6, k7, k8⟩, k9⟩ := C25_arc_partial hx reverse
  set A := Path.arc c a b reverse with hA
  have hlen : 0 ≤ A.length := by rw [hA]; exact abs_nonneg _
  have hgA : GoodPath A := ⟨hlen, by simp [hA, Path.arc], by simp [hA, Path.arc], fun u _ _ => by
    obtain ⟨P, _, h, _⟩ := k9 u u
    exact ⟨P, h⟩⟩
  obtain ⟨r, hr, hg, h1, h2, _⟩ := C22_breakpoints_partial hp hgA rfl ha k5 (pointsClose_self a)
  obtain ⟨_, h3⟩ := C21_join hp.len hlen ha k5
  obtain ⟨r', hr', hl, hs, he, h4, _, h5, _⟩ := h3 (pointsClose_self a)
  obtain ⟨r'', hr'', _, hn, hb, _⟩ := join_some ha k5 (pointsClose_self a)
  rw [hr] at hr' hr''
  cases hr'; cases hr''
  refine ⟨r, φ, by simp [Path.arcTo, ha, ← hA, hr], hg, k1, k2, k3, by rw [hl, k4], hs, ⟨E, (he (Or.inr rfl)).trans k6, k7, k8⟩, by simpa [hA, Path.arc] using hb, h2.2, h4, ?_⟩
  intro s t hs0 hs1 ht0 ht1
  obtain ⟨P, Q, q1, q2, q3, q4⟩ := k9 (s - p.length) (t - p.length)
  refine ⟨P, Q, ?_, ?_, q3, ?_⟩
  · have := h5 rfl (s - p.length) (by linarith) (by linarith)
    rwa [show p.length + (s - p.length) = s by ring, q1] at this
  · have := h5 rfl (t - p.length) (by linarith) (by linarith)
    rwa [show p.length + (t - p.length) = t by ring, q2] at this
  · rw [q4]; congr 1; ring

/-- **C82**, `middle_point`: cutting the path there gives two parts of the same length. -/
theorem C82_middle (p : Path) : (p.cut (p.length / 2)).1.length = (p.cut (p.length / 2)).2.length ∧
    (p.cut (p.length / 2)).1.endpoint = p.middle ∧ (p.cut (p.length / 2)).2.start = p.middle := by
  refine ⟨?_, rfl, ?_⟩
  · show p.length / 2 = p.length - p.length / 2
    ring
  · show p.func (0 + p.length / 2) = p.func (p.length / 2)
    rw [zero_add]

/-- **C82**, the middle of a line is the mean of its ends. -/
theorem C82_middle_line {a b : V3} (h : a ≠ b) : (Path.line a b).middle = some ((1 / 2 : ℝ) * (a + b)) := by
  have hn := norm_sub_pos h
  unfold Path.middle
  rw [line_func h]
  have : (Path.line a b).length / 2 / V3.norm (a - b) = 1 / 2 := by
    show V3.norm (a - b) / 2 / V3.norm (a - b) = 1 / 2
    field_simp
  rw [this]
  congr 1
  ext <;> simp <;> ring

/-- **C82**: the hypotheses are met by the segment from (0,0,0) to (3,0,0), continued by a quarter of a circle about (3,0,1). -/
theorem C82_example : GoodPath (Path.line 0 ⟨3, 0, 0⟩) ∧ (Path.line 0 ⟨3, 0, 0⟩).endpoint = some ⟨3, 0, 0⟩ ∧
    cross ((⟨3, 0, 0⟩ : V3) - ⟨3, 0, 1⟩) (⟨4, 0, 1⟩ - ⟨3, 0, 1⟩) ≠ 0 ∧ Spec.dist ⟨4, 0, 1⟩ ⟨3, 0, 1⟩ = Spec.dist ⟨3, 0, 0⟩ ⟨3, 0, 1⟩ := by
  refine ⟨line_good exFirst_ne, line_end exFirst_ne, ?_, ?_⟩
  · intro h
    have := congrArg V3.y h
    simp [cross] at this
    norm_num at this
  · simp [Spec.dist, V3.norm, dot]
    norm_num

end Traceon
