import Verif.Props.MeshSize
import Verif.Props.Ruled6

/-!
# The sizes of the triangles of the surfaces that users draw (C108)
-/
namespace Traceon
open Spec

theorem amid_of {f : ℝ → ℝ} {T u u' u'' : ℝ} {q q' q'' : V3} (hm : ∀ x y, 0 ≤ x → x ≤ y → y ≤ T → f x ≤ f y) (h1 : u ≤ u') (h2 : u' ≤ u'') (hT : u'' - u ≤ T)
    (e1 : Spec.dist q q' = f |u - u'|) (e2 : Spec.dist q' q'' = f |u' - u''|) (e3 : Spec.dist q q'' = f |u - u''|) : Amid q q' q'' := by
  rw [abs_sub_comm, abs_of_nonneg (sub_nonneg.2 h1)] at e1
  rw [abs_sub_comm, abs_of_nonneg (sub_nonneg.2 h2)] at e2
  rw [abs_sub_comm, abs_of_nonneg (sub_nonneg.2 (h1.trans h2))] at e3
  refine ⟨?_, ?_⟩
  · rw [e1, e3]; exact hm _ _ (by linarith) (by linarith) (by linarith)
  · rw [e2, e3]; exact hm _ _ (by linarith) (by linarith) (by linarith)

theorem chord_mono {r : ℝ} (hr : 0 < r) {x y : ℝ} (h0 : 0 ≤ x) (h1 : x ≤ y) (h2 : y ≤ Real.pi * r) : Spec.chord r x ≤ Spec.chord r y := by
  have a1 : 0 ≤ x / (2 * r) := by positivity
  have a2 : x / (2 * r) ≤ y / (2 * r) := div_le_div_of_nonneg_right h1 (by positivity)
  have a3 : y / (2 * r) ≤ Real.pi / 2 := by rw [div_le_iff₀ (by positivity)]; linarith
  have hpi := Real.pi_pos
  unfold Spec.chord
  rw [abs_of_nonneg (Real.sin_nonneg_of_nonneg_of_le_pi a1 (by linarith)), abs_of_nonneg (Real.sin_nonneg_of_nonneg_of_le_pi (a1.trans a2) (by linarith))]
  have := Real.sin_le_sin_of_le_of_le_pi_div_two (by linarith) a3 a2
  nlinarith

/-- A path each of whose stretches is a line or an arc of at most two full turns. -/
def SteadyPath (p : Path) : Prop :=
  ∀ uu ∈ pieces p, ∃ f : ℝ → ℝ, (∀ x y, 0 ≤ x → x ≤ y → y ≤ (uu.2 - uu.1) / 4 → f x ≤ f y) ∧ ∀ u u' q q', uu.1 ≤ u → u ≤ uu.2 → uu.1 ≤ u' → u' ≤ uu.2 →
    p.func u = some q → p.func u' = some q' → Spec.dist q q' = f |u - u'|

theorem steady_onward {p : Path} (h : SteadyPath p) : OnwardPath p := by
  intro uu hu u u' u'' q q' q'' h1 h2 h3 h4 h5 e1 e2 e3
  obtain ⟨f, hm, hf⟩ := h uu hu
  exact amid_of hm h2 h3 h5 (hf _ _ _ _ h1 (by linarith) (by linarith) (by linarith) e1 e2) (hf _ _ _ _ (by linarith) (by linarith) (by linarith) h4 e2 e3)
    (hf _ _ _ _ h1 (by linarith) (by linarith) h4 e1 e3)

/-- What a user draws with lines and arcs, without circles traversed more than twice. -/
inductive Spec.Plain : Path → Prop
  | line {a b : V3} : a ≠ b → Plain (Path.line a b)
  | arc {c a b : V3} (reverse : Bool) : V3.cross (a - c) (b - c) ≠ 0 → Plain (Path.arc c a b reverse)
  | circleXZ (x0 z0 : ℝ) {r angle : ℝ} : 0 < r → 0 ≤ angle → angle ≤ 4 * Real.pi → Plain (Path.circleXZ x0 z0 r angle)
  | circleYZ (y0 z0 : ℝ) {r angle : ℝ} : 0 < r → 0 ≤ angle → angle ≤ 4 * Real.pi → Plain (Path.circleYZ y0 z0 r angle)
  | circleXY (x0 y0 : ℝ) {r angle : ℝ} : 0 < r → 0 ≤ angle → angle ≤ 4 * Real.pi → Plain (Path.circleXY x0 y0 r angle)
  | lineTo {p r : Path} {a b : V3} : Plain p → p.endpoint = some a → a ≠ b → p.lineTo b = some r → Plain r
  | arcTo {p r : Path} {a b c : V3} (reverse : Bool) : Plain p → p.endpoint = some a → V3.cross (a - c) (b - c) ≠ 0 →
      p.arcTo c b reverse = some r → Plain r

theorem plain_contour {p : Path} (h : Plain p) : Contour p := by
  induction h with
  | line h => exact .line h
  | arc r h => exact .arc r h
  | circleXZ x z h1 h2 _ => exact .circleXZ x z h1 h2
  | circleYZ x z h1 h2 _ => exact .circleYZ x z h1 h2
  | circleXY x z h1 h2 _ => exact .circleXY x z h1 h2
  | lineTo _ h1 h2 h3 ih => exact .lineTo ih h1 h2 h3
  | arcTo r _ h1 h2 h3 ih => exact .arcTo r ih h1 h2 h3

theorem polygon_plain {p : Path} (h : Polygon p) : Plain p := by
  induction h with
  | line h => exact .line h
  | lineTo _ ha hab hr ih => exact .lineTo ih ha hab hr

theorem single_piece {p : Path} (hb : p.breaks = []) {uu : ℝ × ℝ} (h : uu ∈ pieces p) : uu = (0, p.length) := by
  simpa [pieces, Surface.pairs, hb] using h

theorem round_steady {p : Path} (hb : p.breaks = []) {r : ℝ} (hr : 0 < r) (hl : p.length ≤ 4 * Real.pi * r)
    (h : ∀ s t, ∃ P Q, p.func s = some P ∧ p.func t = some Q ∧ Spec.dist P Q = Spec.chord r (s - t)) : SteadyPath p := by
  intro uu hu
  rw [single_piece hb hu]
  refine ⟨Spec.chord r, fun x y h1 h2 h3 => chord_mono hr h1 h2 (by simp only at h3; linarith), fun u u' q q' _ _ _ _ e1 e2 => ?_⟩
  obtain ⟨P', Q', k1, k2, k3⟩ := h u u'
  rw [e1] at k1; rw [e2] at k2
  cases k1; cases k2
  rw [k3, chord_abs]

theorem extend_steady {p r : Path} (hp : GoodPath p) (he : SteadyPath p) (hb : r.breaks = p.breaks ++ [p.length])
    (h1 : ∀ t, 0 ≤ t → t ≤ p.length → r.func t = p.func t) {f : ℝ → ℝ} (hm : ∀ x y, 0 ≤ x → x ≤ y → y ≤ (r.length - p.length) / 4 → f x ≤ f y)
    (h2 : ∀ s t, p.length ≤ s → s ≤ r.length → p.length ≤ t → t ≤ r.length → ∃ P Q, r.func s = some P ∧ r.func t = some Q ∧ Spec.dist P Q = f |s - t|) :
    SteadyPath r := by
  intro uu hu
  rw [pieces_extend hb] at hu
  rcases List.mem_append.1 hu with hu | hu
  · obtain ⟨g, g0, hg⟩ := he uu hu
    obtain ⟨b1, b2, b3⟩ := pairs_bounds (goodPath_breaks hp) hu
    refine ⟨g, g0, fun u u' q q' k1 k2 k3 k4 e1 e2 => ?_⟩
    rw [h1 u (by linarith) (by linarith)] at e1
    rw [h1 u' (by linarith) (by linarith)] at e2
    exact hg u u' q q' k1 k2 k3 k4 e1 e2
  · rw [List.mem_singleton] at hu
    subst hu
    refine ⟨f, hm, fun u u' q q' g1 g2 g3 g4 k1 k2 => ?_⟩
    obtain ⟨P', Q', k3, k4, k5⟩ := h2 u u' g1 g2 g3 g4
    rw [k1] at k3; rw [k2] at k4
    cases k3; cases k4
    exact k5

theorem plain_steady {p : Path} (h : Plain p) : GoodPath p ∧ SteadyPath p := by
  refine ⟨(contour_even (plain_contour h)).1, ?_⟩
  have hpi := Real.pi_pos
  induction h with
  | line h =>
    intro uu hu
    refine ⟨fun x => x, fun x y _ h _ => h, fun u u' q q' _ _ _ _ e1 e2 => ?_⟩
    obtain ⟨P, Q, k1, k2, k3, -⟩ := (C25_line h).2.2.2 u u'
    rw [e1] at k1; rw [e2] at k2
    cases k1; cases k2
    exact k3
  | arc reverse hx =>
    obtain ⟨φ, k1, k2, k3, k4, k5, -, k9⟩ := C25_arc_partial hx reverse
    have hr : 0 < V3.norm _ := V3.norm_pos (arc_frame hx).1
    refine round_steady (by simp [Path.arc]) hr ?_ (fun s t => by
      obtain ⟨P, Q, q1, q2, -, q4⟩ := k9 s t
      exact ⟨P, Q, q1, q2, q4⟩)
    rw [k4, mul_comm]
    refine mul_le_mul_of_nonneg_right ?_ hr.le
    split <;> linarith
  | @circleXZ x0 z0 r angle hr h0 ha =>
    obtain ⟨k1, -, -, -, k5⟩ := (C25_circles x0 z0 angle hr).1
    refine round_steady rfl hr (by rw [k1]; nlinarith) (fun s t => ?_)
    obtain ⟨P, Q, q1, q2, -, q4⟩ := k5 s t
    exact ⟨P, Q, q1, q2, q4⟩
  | @circleYZ x0 z0 r angle hr h0 ha =>
    obtain ⟨k1, -, -, -, k5⟩ := (C25_circles x0 z0 angle hr).2.1
    refine round_steady rfl hr (by rw [k1]; nlinarith) (fun s t => ?_)
    obtain ⟨P, Q, q1, q2, -, q4⟩ := k5 s t
    exact ⟨P, Q, q1, q2, q4⟩
  | @circleXY x0 z0 r angle hr h0 ha =>
    obtain ⟨k1, -, -, -, k5⟩ := (C25_circles x0 z0 angle hr).2.2
    refine round_steady rfl hr (by rw [k1]; nlinarith) (fun s t => ?_)
    obtain ⟨P, Q, q1, q2, -, q4⟩ := k5 s t
    exact ⟨P, Q, q1, q2, q4⟩
  | @lineTo p r a b h ha hab hr ih =>
    have g := (contour_even (plain_contour h)).1
    obtain ⟨r', hr', hg, hlen, -, -, hb, -, -, -, k1, k2⟩ := C22_line_to g ha hab
    rw [hr] at hr'; cases hr'
    refine extend_steady g ih hb k1 (f := fun x => x) (fun x y _ h _ => h) ?_
    intro s t s1 s2 t1 t2
    have e1 := k2 (s - p.length) (by linarith) (by linarith)
    have e2 := k2 (t - p.length) (by linarith) (by linarith)
    rw [show p.length + (s - p.length) = s by ring] at e1
    rw [show p.length + (t - p.length) = t by ring] at e2
    refine ⟨_, _, e1, e2, ?_⟩
    obtain ⟨P, Q, q1, q2, q3, -⟩ := (C25_line hab).2.2.2 (s - p.length) (t - p.length)
    rw [line_func hab] at q1 q2
    cases q1; cases q2
    rw [q3, sub_sub_sub_cancel_right]
  | @arcTo p r a b c reverse h ha hx hr ih =>
    have g := (contour_even (plain_contour h)).1
    obtain ⟨r', φ, hr', hg, p1, p2, -, hlen, -, -, hb, -, k1, k2⟩ := C82_arc g ha hx reverse
    rw [hr] at hr'; cases hr'
    have hpos : 0 < Spec.dist a c := V3.norm_pos (arc_frame hx).1
    refine extend_steady g ih hb k1 (f := Spec.chord (Spec.dist a c)) (fun x y h1 h2 h3 => chord_mono hpos h1 h2 ?_) ?_
    · refine h3.trans ?_
      rw [hlen, add_sub_cancel_left]
      have : (if reverse = true then 2 * Real.pi - φ else φ) ≤ 2 * Real.pi := by split <;> linarith
      nlinarith
    · intro s t s1 s2 t1 t2
      obtain ⟨P, Q, q1, q2, -, q4⟩ := k2 s t s1 s2 t1 t2
      exact ⟨P, Q, q1, q2, by rw [q4]; exact chord_abs _ _⟩

/-- The hypotheses of `C108_size`. -/
structure Steady (s : Surface) : Prop where
  good : GoodSurface s
  breaks : s.breaks1 = [] ∨ s.breaks2 = []
  onward : ∀ sec ∈ s.sections, Onward sec

theorem steady_sized {s : Surface} (h : Steady s) : SizedBy s := fun _ _ _ _ hm => C108_size h.good h.breaks h.onward hm

theorem sum_steady {s : Surface} {p q : Path} (hp : GoodPath p) (hq : GoodPath q) (hb : p.breaks = [] ∨ q.breaks = [])
    (ep : OnwardPath p) (eq : OnwardPath q) {o : V3}
    (l1 : s.length1 = p.length) (l2 : s.length2 = q.length) (b1 : s.breaks1 = p.breaks) (b2 : s.breaks2 = q.breaks)
    (hf : ∀ u v a b, p.func u = some a → q.func v = some b → s.func u v = some (a + b - o)) : Steady s := by
  have d1 : ∀ a a' b : V3, Spec.dist (a + b - o) (a' + b - o) = Spec.dist a a' := by
    intro a a' b; unfold Spec.dist; congr 1; ext <;> simp
  have d2 : ∀ a b b' : V3, Spec.dist (a + b - o) (a + b' - o) = Spec.dist b b' := by
    intro a b b'; unfold Spec.dist; congr 1; ext <;> simp
  have hg : GoodSurface s := by
    refine ⟨by rw [b1, l1]; exact goodPath_breaks hp, by rw [b2, l2]; exact goodPath_breaks hq, fun u v h1 h2 h3 h4 => ?_⟩
    obtain ⟨a, ha⟩ := hp.defined u h1 (by rw [← l1]; exact h2)
    obtain ⟨b, hb⟩ := hq.defined v h3 (by rw [← l2]; exact h4)
    rw [hf u v a b ha hb]; rfl
  refine ⟨hg, by rw [b1, b2]; exact hb, ?_⟩
  intro sec h
  unfold Surface.sections at h
  obtain ⟨uu, hu, h⟩ := List.mem_flatMap.1 h
  obtain ⟨vv, hv, rfl⟩ := List.mem_map.1 h
  obtain ⟨a1, a2, a3⟩ := pairs_bounds hg.breaks1 hu
  obtain ⟨c1, c2, c3⟩ := pairs_bounds hg.breaks2 hv
  rw [l1] at a3
  rw [l2] at c3
  have hf1 := ep uu (by rw [pieces, ← l1, ← b1]; exact hu)
  have hg1 := eq vv (by rw [pieces, ← l2, ← b2]; exact hv)
  have hdp : ∀ u, 0 ≤ u → u ≤ uu.2 - uu.1 → ∃ a, p.func (uu.1 + u) = some a := fun u h1 h2 => hp.defined _ (by linarith) (by linarith)
  have hdq : ∀ v, 0 ≤ v → v ≤ vv.2 - vv.1 → ∃ a, q.func (vv.1 + v) = some a := fun v h1 h2 => hq.defined _ (by linarith) (by linarith)
  constructor
  · intro u u' u'' v P P' P'' h1 h2 h3 h4 h5 h6 h7 e1 e2 e3
    simp only at h4 h5 h7 e1 e2 e3
    obtain ⟨a, ha⟩ := hdp u h1 (by linarith)
    obtain ⟨a', ha'⟩ := hdp u' (by linarith) (by linarith)
    obtain ⟨a'', ha''⟩ := hdp u'' (by linarith) (by linarith)
    obtain ⟨b, hb⟩ := hdq v h6 h7
    rw [hf _ _ _ _ ha hb] at e1
    rw [hf _ _ _ _ ha' hb] at e2
    rw [hf _ _ _ _ ha'' hb] at e3
    cases e1; cases e2; cases e3
    have := hf1 _ _ _ _ _ _ (by linarith) (by linarith) (by linarith) (by linarith) (by linarith) ha ha' ha''
    unfold Amid at this ⊢
    rw [d1, d1, d1]
    exact this
  · intro u v v' v'' P P' P'' h1 h2 h3 h4 h5 h6 h7 e1 e2 e3
    simp only at h4 h5 h7 e1 e2 e3
    obtain ⟨a, ha⟩ := hdq v h1 (by linarith)
    obtain ⟨a', ha'⟩ := hdq v' (by linarith) (by linarith)
    obtain ⟨a'', ha''⟩ := hdq v'' (by linarith) (by linarith)
    obtain ⟨b, hb⟩ := hdp u h6 h7
    rw [hf _ _ _ _ hb ha] at e1
    rw [hf _ _ _ _ hb ha'] at e2
    rw [hf _ _ _ _ hb ha''] at e3
    cases e1; cases e2; cases e3
    have := hg1 _ _ _ _ _ _ (by linarith) (by linarith) (by linarith) (by linarith) (by linarith) ha ha' ha''
    unfold Amid at this ⊢
    rw [d2, d2, d2]
    exact this

theorem extrude_steady {p : Path} (hp : GoodPath p) (he : OnwardPath p) {w : V3} (hw : w ≠ 0) : Steady (p.extrude w) := by
  have h0 : (0 : V3) ≠ w := Ne.symm hw
  have hn : V3.norm ((0 : V3) - w) = V3.norm w := by
    unfold V3.norm V3.dot; congr 1; simp
  refine sum_steady (q := Path.line 0 w) (o := 0) hp (line_good h0) (Or.inr rfl) he (steady_onward (plain_steady (.line h0)).2) rfl ?_ rfl rfl ?_
  · simp only [Path.extrude, Path.line]; exact hn.symm
  · intro u v a b ha hb
    rw [line_func h0, hn] at hb
    cases hb
    have hw' : V3.norm w ≠ 0 := by rw [← hn]; exact (norm_sub_pos h0).ne'
    simp only [Path.extrude, ha, safeDiv, hw', if_false, Option.bind_eq_bind, Option.bind_some, Option.pure_def, Option.some.injEq]
    ext <;> simp

theorem extrudeByPath_steady {p q : Path} (hp : GoodPath p) (hq : GoodPath q) (hb : p.breaks = [] ∨ q.breaks = [])
    (ep : OnwardPath p) (eq : OnwardPath q) : ∃ s, p.extrudeByPath q = some s ∧ Steady s := by
  obtain ⟨o, ho⟩ := hq.defined 0 le_rfl hq.len
  refine ⟨_, by simp only [Path.extrudeByPath, Path.start, ho, Option.bind_eq_bind, Option.bind_some]; rfl,
    sum_steady (o := o) hp hq hb ep eq rfl rfl rfl rfl (fun u v a b ha hb => ?_)⟩
  simp only [ha, hb, Option.bind_eq_bind, Option.bind_some, Option.pure_def]

theorem sqrt_chord_mono {x y : ℝ} (h0 : 0 ≤ x) (h1 : x ≤ y) (h2 : y ≤ Real.pi) : Real.sqrt (2 - 2 * Real.cos x) ≤ Real.sqrt (2 - 2 * Real.cos y) := by
  refine Real.sqrt_le_sqrt ?_
  have := Real.cos_le_cos_of_nonneg_of_le_pi h0 h2 h1
  linarith

theorem turned_steady {s : Surface} {p : Path} {i : Fin 3} {κ : ℝ} (ht : Turned s p i κ) (hp : GoodPath p) (he : OnwardPath p)
    (hκ : |κ| * s.length2 ≤ 4 * Real.pi) : Steady s := by
  have hs := turned_good ht hp
  refine ⟨hs, Or.inr ht.breaks2, ?_⟩
  intro sec h
  unfold Surface.sections at h
  obtain ⟨uu, hu, h⟩ := List.mem_flatMap.1 h
  obtain ⟨vv, hv, rfl⟩ := List.mem_map.1 h
  obtain ⟨a1, a2, a3⟩ := pairs_bounds hs.breaks1 hu
  have hu' : uu ∈ pieces p := by rw [pieces, ← ht.len, ← ht.breaks1]; exact hu
  have hv' : vv = (0, s.length2) := by simpa [Surface.pairs, ht.breaks2] using hv
  subst hv'
  have hf := he uu hu'
  rw [ht.len] at a3
  have hdef : ∀ u, 0 ≤ u → u ≤ uu.2 - uu.1 → ∃ q, p.func (uu.1 + u) = some q := fun u h1 h2 => hp.defined _ (by linarith) (by linarith)
  constructor
  · intro u u' u'' v P P' P'' h1 h2 h3 h4 h5 h6 h7 e1 e2 e3
    simp only at h4 h5 h7 e1 e2 e3
    obtain ⟨q, hq⟩ := hdef u h1 (by linarith)
    obtain ⟨q', hq'⟩ := hdef u' (by linarith) (by linarith)
    obtain ⟨q'', hq''⟩ := hdef u'' (by linarith) (by linarith)
    rw [ht.func _ _ _ hq] at e1
    rw [ht.func _ _ _ hq'] at e2
    rw [ht.func _ _ _ hq''] at e3
    cases e1; cases e2; cases e3
    have := hf _ _ _ _ _ _ (by linarith) (by linarith) (by linarith) (by linarith) (by linarith) hq hq' hq''
    unfold Amid at this ⊢
    rw [rotC_rigid, rotC_rigid, rotC_rigid]
    exact this
  · intro u v v' v'' P P' P'' h1 h2 h3 h4 h5 h6 h7 e1 e2 e3
    simp only [sub_zero] at h4 h5 h7 e1 e2 e3
    obtain ⟨q, hq⟩ := hdef u h6 h7
    rw [ht.func _ _ _ hq] at e1 e2 e3
    cases e1; cases e2; cases e3
    have ev : ∀ x y, Spec.dist (rotC i (κ * (0 + x)) 0 q) (rotC i (κ * (0 + y)) 0 q) = offAxis i q * Real.sqrt (2 - 2 * Real.cos (|κ| * |x - y|)) := by
      intro x y
      rw [rotC_chord, ← abs_mul, Real.cos_abs]
      congr 4; ring_nf
    refine amid_of (f := fun x => offAxis i q * Real.sqrt (2 - 2 * Real.cos (|κ| * x))) (T := s.length2 / 4) (fun x y k1 k2 k3 => ?_) h2 h3 h5 (ev _ _) (ev _ _) (ev _ _)
    have g3 : 0 ≤ offAxis i q := by fin_cases i <;> exact Real.sqrt_nonneg _
    have g4 := abs_nonneg κ
    refine mul_le_mul_of_nonneg_left (sqrt_chord_mono (by positivity) (mul_le_mul_of_nonneg_left k2 g4) ?_) g3
    have := mul_le_mul_of_nonneg_left k3 g4
    linarith

theorem revolve_steady {p : Path} (hp : GoodPath p) (he : OnwardPath p) {rAvg : ℝ} (hr : 0 < rAvg) {angle : ℝ} (ha : |angle| ≤ 4 * Real.pi) :
    Steady (p.revolveX rAvg angle) ∧ Steady (p.revolveY rAvg angle) ∧ Steady (p.revolveZ rAvg angle) := by
  obtain ⟨h0, h1, h2⟩ := revolve_turned (p := p) hr angle
  have hpi := Real.pi_pos
  have hk : |angle / (2 * Real.pi * rAvg)| * (2 * Real.pi * rAvg) ≤ 4 * Real.pi := by
    rw [abs_div, abs_of_pos (show 0 < 2 * Real.pi * rAvg by positivity)]
    field_simp
    linarith
  exact ⟨turned_steady h0 hp he hk, turned_steady h1 hp he (by rw [abs_neg]; exact hk), turned_steady h2 hp he hk⟩

/-- **C108**, extrusions: any contour of lines and arcs, extruded along any vector. -/
theorem C108_extrude {p : Path} (h : Plain p) {w : V3} (hw : w ≠ 0) : SizedBy (p.extrude w) :=
  steady_sized (extrude_steady (plain_steady h).1 (steady_onward (plain_steady h).2) hw)

/-- **C108**, extrusions along a path: if one of the two has no corners. -/
theorem C108_extrude_path {p q : Path} (h : Plain p) (h' : Plain q) (hb : p.breaks = [] ∨ q.breaks = []) :
    ∃ s, p.extrudeByPath q = some s ∧ SizedBy s := by
  obtain ⟨s, hs, ht⟩ := extrudeByPath_steady (plain_steady h).1 (plain_steady h').1 hb (steady_onward (plain_steady h).2) (steady_onward (plain_steady h').2)
  exact ⟨s, hs, steady_sized ht⟩

/-- **C108**, surfaces of revolution: any contour of lines and arcs, turned about any of the three axes over at most two full turns. -/
theorem C108_revolve {p : Path} (h : Plain p) {rAvg : ℝ} (hr : 0 < rAvg) {angle : ℝ} (ha : |angle| ≤ 4 * Real.pi) :
    SizedBy (p.revolveX rAvg angle) ∧ SizedBy (p.revolveY rAvg angle) ∧ SizedBy (p.revolveZ rAvg angle) := by
  obtain ⟨h0, h1, h2⟩ := revolve_steady (plain_steady h).1 (steady_onward (plain_steady h).2) hr ha
  exact ⟨steady_sized h0, steady_sized h1, steady_sized h2⟩

/-- **C108**, constant mesh sizes: no side of a triangle is longer than twice the mesh size. -/
theorem C108_constant {s : Surface} (h : SizedBy s) : Sized s := by
  intro ms fuel name mesh hm t ht i hi j hj p q hp hq
  obtain ⟨c, hc⟩ := h _ _ _ _ hm t ht
  exact (hc i hi p hp).2 j hj q hq

end Traceon
