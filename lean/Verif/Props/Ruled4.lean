import Verif.Props.Ruled3

/-!
# C18, C67: contours of lines and arcs, and the surfaces of geometry.py that have a name
-/
namespace Traceon
open Spec SMesh

theorem chord_abs (r x : ℝ) : Spec.chord r x = Spec.chord r |x| := by
  unfold Spec.chord
  rcases abs_choice x with h | h <;> rw [h]
  rw [neg_div, Real.sin_neg, abs_neg]

theorem chord_le {r : ℝ} (hr : 0 < r) (x : ℝ) : Spec.chord r x ≤ |x| := by
  unfold Spec.chord
  have h := Real.abs_sin_le_abs (x := x / (2 * r))
  have : 2 * r * |Real.sin (x / (2 * r))| ≤ 2 * r * |x / (2 * r)| := mul_le_mul_of_nonneg_left h (by linarith)
  refine this.trans (le_of_eq ?_)
  rw [abs_div, abs_of_pos (by linarith : 0 < 2 * r)]
  field_simp

/-- a path without breakpoints that is parametrised by length along a circle -/
theorem round_even {p : Path} (hb : p.breaks = []) {r : ℝ} (hr : 0 < r)
    (h : ∀ s t, ∃ P Q, p.func s = some P ∧ p.func t = some Q ∧ Spec.dist P Q = Spec.chord r (s - t)) :
    EvenPath p ∧ LipschitzPath p 1 := by
  have key : ∀ s t P Q, p.func s = some P → p.func t = some Q → Spec.dist P Q = Spec.chord r |s - t| := by
    intro s t P Q h1 h2
    obtain ⟨P', Q', e1, e2, e3⟩ := h s t
    rw [h1] at e1; rw [h2] at e2
    cases e1; cases e2
    rw [e3, chord_abs]
  refine ⟨fun uu _ => ⟨Spec.chord r, fun x => by unfold Spec.chord; positivity, fun u u' q q' _ _ _ _ e1 e2 => key u u' q q' e1 e2⟩, ?_⟩
  intro u u' q q' _ _ _ _ e1 e2
  rw [key u u' q q' e1 e2, one_mul]
  refine (chord_le hr _).trans (le_of_eq (abs_abs _))

/-- What a user draws with lines and arcs: a line, an arc or a circle, extended with `line_to` and `arc_to`. -/
inductive Spec.Contour : Path → Prop
  | line {a b : V3} : a ≠ b → Contour (Path.line a b)
  | arc {c a b : V3} (reverse : Bool) : V3.cross (a - c) (b - c) ≠ 0 → Contour (Path.arc c a b reverse)
  | circleXZ (x0 z0 : ℝ) {r angle : ℝ} : 0 < r → 0 ≤ angle → Contour (Path.circleXZ x0 z0 r angle)
  | circleYZ (y0 z0 : ℝ) {r angle : ℝ} : 0 < r → 0 ≤ angle → Contour (Path.circleYZ y0 z0 r angle)
  | circleXY (x0 y0 : ℝ) {r angle : ℝ} : 0 < r → 0 ≤ angle → Contour (Path.circleXY x0 y0 r angle)
  | lineTo {p r : Path} {a b : V3} : Contour p → p.endpoint = some a → a ≠ b → p.lineTo b = some r → Contour r
  | arcTo {p r : Path} {a b c : V3} (reverse : Bool) : Contour p → p.endpoint = some a → V3.cross (a - c) (b - c) ≠ 0 →
      p.arcTo c b reverse = some r → Contour r

theorem pieces_extend {p r : Path} (hb : r.breaks = p.breaks ++ [p.length]) : pieces r = pieces p ++ [(p.length, r.length)] := by
  unfold pieces
  rw [hb]
  have := pairs_append (0 :: p.breaks) p.length r.length
  simpa using this

theorem extend_even {p r : Path} (hp : GoodPath p) (hr : GoodPath r) (hle : p.length ≤ r.length) (he : EvenPath p) (hl : LipschitzPath p 1)
    (hb : r.breaks = p.breaks ++ [p.length])
    (h1 : ∀ t, 0 ≤ t → t ≤ p.length → r.func t = p.func t) {f : ℝ → ℝ} (f0 : ∀ x, 0 ≤ f x) (f1 : ∀ x, f x ≤ |x|)
    (h2 : ∀ s t, p.length ≤ s → s ≤ r.length → p.length ≤ t → t ≤ r.length → ∃ P Q, r.func s = some P ∧ r.func t = some Q ∧ Spec.dist P Q = f |s - t|) :
    EvenPath r ∧ LipschitzPath r 1 := by
  have e := pieces_extend hb
  have key : ∀ s t P Q, p.length ≤ s → s ≤ r.length → p.length ≤ t → t ≤ r.length → r.func s = some P → r.func t = some Q → Spec.dist P Q = f |s - t| := by
    intro s t P Q g1 g2 g3 g4 k1 k2
    obtain ⟨P', Q', k3, k4, k5⟩ := h2 s t g1 g2 g3 g4
    rw [k1] at k3; rw [k2] at k4
    cases k3; cases k4
    exact k5
  constructor
  · intro uu hu
    rw [e] at hu
    rcases List.mem_append.1 hu with hu | hu
    · obtain ⟨g, g0, hg⟩ := he uu hu
      obtain ⟨b1, b2, b3⟩ := pairs_bounds (goodPath_breaks hp) hu
      refine ⟨g, g0, fun u u' q q' k1 k2 k3 k4 e1 e2 => ?_⟩
      rw [h1 u (by linarith) (by linarith)] at e1
      rw [h1 u' (by linarith) (by linarith)] at e2
      exact hg u u' q q' k1 k2 k3 k4 e1 e2
    · rw [List.mem_singleton] at hu
      subst hu
      exact ⟨f, f0, fun u u' q q' k1 k2 k3 k4 e1 e2 => key u u' q q' k1 k2 k3 k4 e1 e2⟩
  · refine path_lipschitz hr (fun uu hu u u' q q' k1 k2 k3 k4 e1 e2 => ?_)
    rw [e] at hu
    rcases List.mem_append.1 hu with hu | hu
    · obtain ⟨b1, b2, b3⟩ := pairs_bounds (goodPath_breaks hp) hu
      rw [h1 u (by linarith) (by linarith)] at e1
      rw [h1 u' (by linarith) (by linarith)] at e2
      exact hl u u' q q' (by linarith) (by linarith) (by linarith) (by linarith) e1 e2
    · rw [List.mem_singleton] at hu
      subst hu
      rw [key u u' q q' k1 k2 k3 k4 e1 e2, one_mul]
      exact (f1 _).trans (le_of_eq (abs_abs _))

theorem contour_even {p : Path} (h : Contour p) : GoodPath p ∧ EvenPath p ∧ LipschitzPath p 1 := by
  induction h with
  | line h =>
    refine ⟨line_good h, straight_even (line_straight h), fun u u' q q' _ _ _ _ e1 e2 => ?_⟩
    obtain ⟨P, Q, k1, k2, k3, -⟩ := (C25_line h).2.2.2 u u'
    rw [e1] at k1; rw [e2] at k2
    cases k1; cases k2
    rw [k3, one_mul]
  | arc reverse hx =>
    obtain ⟨φ, k1, k2, k3, k4, k5, ⟨E, k6, k7, k8⟩, k9⟩ := C25_arc_partial hx reverse
    have hr : 0 < V3.norm _ := V3.norm_pos (arc_frame hx).1
    obtain ⟨h1, h2⟩ := round_even (p := Path.arc _ _ _ reverse) (by simp [Path.arc]) hr (fun s t => by
      obtain ⟨P, Q, q1, q2, -, q4⟩ := k9 s t
      exact ⟨P, Q, q1, q2, q4⟩)
    exact ⟨⟨abs_nonneg _, by simp [Path.arc], by simp [Path.arc], fun u _ _ => by
      obtain ⟨P, _, h, _⟩ := k9 u u
      exact ⟨P, h⟩⟩, h1, h2⟩
  | @circleXZ x0 z0 r angle hr ha =>
    obtain ⟨k1, -, -, -, k5⟩ := (C25_circles x0 z0 angle hr).1
    obtain ⟨h1, h2⟩ := round_even (p := Path.circleXZ x0 z0 r angle) rfl hr (fun s t => by
      obtain ⟨P, Q, q1, q2, -, q4⟩ := k5 s t
      exact ⟨P, Q, q1, q2, q4⟩)
    exact ⟨⟨by rw [k1]; positivity, by simp [Path.circleXZ, Path.move, Path.mapPoints], by simp [Path.circleXZ, Path.move, Path.mapPoints], fun u _ _ => by
      obtain ⟨P, _, h, _⟩ := k5 u u
      exact ⟨P, h⟩⟩, h1, h2⟩
  | @circleYZ x0 z0 r angle hr ha =>
    obtain ⟨k1, -, -, -, k5⟩ := (C25_circles x0 z0 angle hr).2.1
    obtain ⟨h1, h2⟩ := round_even (p := Path.circleYZ x0 z0 r angle) rfl hr (fun s t => by
      obtain ⟨P, Q, q1, q2, -, q4⟩ := k5 s t
      exact ⟨P, Q, q1, q2, q4⟩)
    exact ⟨⟨by rw [k1]; positivity, by simp [Path.circleYZ, Path.move, Path.mapPoints], by simp [Path.circleYZ, Path.move, Path.mapPoints], fun u _ _ => by
      obtain ⟨P, _, h, _⟩ := k5 u u
      exact ⟨P, h⟩⟩, h1, h2⟩
  | @circleXY x0 z0 r angle hr ha =>
    obtain ⟨k1, -, -, -, k5⟩ := (C25_circles x0 z0 angle hr).2.2
    obtain ⟨h1, h2⟩ := round_even (p := Path.circleXY x0 z0 r angle) rfl hr (fun s t => by
      obtain ⟨P, Q, q1, q2, -, q4⟩ := k5 s t
      exact ⟨P, Q, q1, q2, q4⟩)
    exact ⟨⟨by rw [k1]; positivity, by simp [Path.circleXY, Path.move, Path.mapPoints], by simp [Path.circleXY, Path.move, Path.mapPoints], fun u _ _ => by
      obtain ⟨P, _, h, _⟩ := k5 u u
      exact ⟨P, h⟩⟩, h1, h2⟩
  | @lineTo p r a b h ha hab hr ih =>
    obtain ⟨g, he, hl⟩ := ih
    obtain ⟨r', hr', hg, hlen, -, -, hb, -, -, -, k1, k2⟩ := C22_line_to g ha hab
    rw [hr] at hr'; cases hr'
    have hn := norm_sub_pos hab
    refine ⟨hg, extend_even g hg (by rw [hlen]; linarith) he hl hb k1 (f := fun x => |x|) (fun x => abs_nonneg x) (fun x => le_rfl) ?_⟩
    intro s t s1 s2 t1 t2
    have e1 := k2 (s - p.length) (by linarith) (by linarith)
    have e2 := k2 (t - p.length) (by linarith) (by linarith)
    rw [show p.length + (s - p.length) = s by ring] at e1
    rw [show p.length + (t - p.length) = t by ring] at e2
    refine ⟨_, _, e1, e2, ?_⟩
    obtain ⟨P, Q, q1, q2, q3, -⟩ := (C25_line hab).2.2.2 (s - p.length) (t - p.length)
    rw [line_func hab] at q1 q2
    cases q1; cases q2
    rw [q3, sub_sub_sub_cancel_right, abs_abs]
  | @arcTo p r a b c reverse h ha hx hr ih =>
    obtain ⟨g, he, hl⟩ := ih
    obtain ⟨r', φ, hr', hg, p1, p2, -, hlen, -, -, hb, -, k1, k2⟩ := C82_arc g ha hx reverse
    rw [hr] at hr'; cases hr'
    have hpos : 0 < V3.norm (a - c) := V3.norm_pos (arc_frame hx).1
    have hle : p.length ≤ r.length := by
      rw [hlen]
      have : 0 ≤ Spec.dist a c * (if reverse = true then 2 * Real.pi - φ else φ) := by
        refine mul_nonneg hpos.le ?_
        split <;> linarith [Real.pi_pos]
      linarith
    refine ⟨hg, extend_even g hg hle he hl hb k1 (f := Spec.chord (V3.norm (a - c))) (fun x => by unfold Spec.chord; positivity) (chord_le hpos) ?_⟩
    intro s t s1 s2 t1 t2
    obtain ⟨P, Q, q1, q2, -, q4⟩ := k2 s t s1 s2 t1 t2
    exact ⟨P, Q, q1, q2, by rw [q4]; exact chord_abs _ _⟩

/-- **C67**: the mesh of any contour of lines and arcs, extruded along any vector, covers the surface, whatever the (constant) mesh size. -/
theorem C67_extrude_partial {p : Path} (h : Contour p) {w : V3} (hw : w ≠ 0) : Covered (p.extrude w) := by
  obtain ⟨hp, he, hl⟩ := contour_even h
  exact C67_tame_partial (extrude_tame hp zero_le_one hl he hw)

/-- **C67**: the same if the contour is extruded along a contour, and one of the two has no corners. -/
theorem C67_extrude_path_partial {p q : Path} (h : Contour p) (h' : Contour q) (hb : p.breaks = [] ∨ q.breaks = []) :
    ∃ s, p.extrudeByPath q = some s ∧ Covered s := by
  obtain ⟨hp, he, hl⟩ := contour_even h
  obtain ⟨hp', he', hl'⟩ := contour_even h'
  obtain ⟨s, hs, ht⟩ := extrudeByPath_tame hp hp' hb he he' zero_le_one zero_le_one hl hl'
  exact ⟨s, hs, C67_tame_partial ht⟩

/-- **C67**: the mesh of any polygon turned about an axis covers the surface, for every angle and every (constant) mesh size. -/
theorem C67_revolve_polygon_partial {p : Path} (h : Polygon p) {rAvg : ℝ} (hr : 0 < rAvg) (angle : ℝ) :
    Covered (p.revolveX rAvg angle) ∧ Covered (p.revolveY rAvg angle) ∧ Covered (p.revolveZ rAvg angle) := by
  obtain ⟨h0, h1, h2⟩ := polygon_revolve_tame h hr angle
  exact ⟨C67_tame_partial h0, C67_tame_partial h1, C67_tame_partial h2⟩

end Traceon
