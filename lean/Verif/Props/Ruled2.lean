import Verif.Props.Ruled
import Verif.Props.Transform

/-!
# C67 for surfaces of revolution and extrusions
-/
namespace Traceon
open Spec SMesh

/-- turning a point about an axis moves it by its distance to the axis times the chord of the angle -/
theorem rotC_chord (i : Fin 3) (α β : ℝ) (q : V3) :
    Spec.dist (rotC i α 0 q) (rotC i β 0 q) = offAxis i q * Real.sqrt (2 - 2 * Real.cos (α - β)) := by
  have h : ∀ A B : ℝ, 0 ≤ A → Real.sqrt A * Real.sqrt B = Real.sqrt (A * B) := fun A B hA => (Real.sqrt_mul hA B).symm
  have e : ∀ y z : ℝ, (Real.cos α * y - Real.sin α * z - (Real.cos β * y - Real.sin β * z)) ^ 2
      + (Real.sin α * y + Real.cos α * z - (Real.sin β * y + Real.cos β * z)) ^ 2 = (y ^ 2 + z ^ 2) * (2 - 2 * Real.cos (α - β)) := by
    intro y z
    rw [Real.cos_sub]
    linear_combination (y ^ 2 + z ^ 2) * (Real.sin_sq_add_cos_sq α + Real.sin_sq_add_cos_sq β)
  fin_cases i
  · simp only [offAxis, Fin.zero_eta]
    rw [h _ _ (by positivity), ← e]
    unfold Spec.dist V3.norm V3.dot
    congr 1
    simp [rotC]; ring
  · simp only [offAxis, Fin.mk_one]
    rw [h _ _ (by positivity)]
    have := e q.z q.x
    rw [show q.x ^ 2 + q.z ^ 2 = q.z ^ 2 + q.x ^ 2 by ring, ← this]
    unfold Spec.dist V3.norm V3.dot
    congr 1
    simp [rotC]; ring
  · simp only [offAxis, Fin.reduceFinMk]
    rw [h _ _ (by positivity), ← e]
    unfold Spec.dist V3.norm V3.dot
    congr 1
    simp [rotC]; ring

/-- a surface that is a path turned about an axis, the angle in proportion to the second parameter -/
structure Turned (s : Surface) (p : Path) (i : Fin 3) (κ : ℝ) : Prop where
  len : s.length1 = p.length
  breaks1 : s.breaks1 = p.breaks
  breaks2 : s.breaks2 = []
  pos : 0 ≤ s.length2
  func : ∀ u v q, p.func u = some q → s.func u v = some (rotC i (κ * v) 0 q)

theorem goodPath_breaks {p : Path} (hp : GoodPath p) : GoodBreaks p.breaks p.length := by
  unfold GoodBreaks
  rw [List.cons_append, List.pairwise_cons, List.pairwise_append]
  refine ⟨fun x hx => ?_, hp.sorted, List.pairwise_singleton _ _, fun x hx y hy => ?_⟩
  · rcases List.mem_append.1 hx with hx | hx
    · exact (hp.inside x hx).1
    · rw [List.mem_singleton.1 hx]; exact hp.len
  · rw [List.mem_singleton.1 hy]; exact (hp.inside x hx).2

theorem turned_good {s : Surface} {p : Path} {i : Fin 3} {κ : ℝ} (ht : Turned s p i κ) (hp : GoodPath p) : GoodSurface s := by
  refine ⟨by rw [ht.breaks1, ht.len]; exact goodPath_breaks hp, by rw [ht.breaks2]; simp [GoodBreaks, ht.pos], ?_⟩
  intro u v h1 h2 _ _
  obtain ⟨q, hq⟩ := hp.defined u h1 (by rw [← ht.len]; exact h2)
  rw [ht.func u v q hq]; rfl

theorem turned_ruled {s : Surface} {p : Path} {i : Fin 3} {κ : ℝ} (ht : Turned s p i κ) (hp : GoodPath p) (he : EvenPath p) (hb : SlimPath i p) :
    ∀ sec ∈ s.sections, ∃ R S c e, Ruled sec R S c e := by
  intro sec h
  have hs := turned_good ht hp
  unfold Surface.sections at h
  obtain ⟨uu, hu, h⟩ := List.mem_flatMap.1 h
  obtain ⟨vv, hv, rfl⟩ := List.mem_map.1 h
  obtain ⟨a1, a2, a3⟩ := pairs_bounds hs.breaks1 hu
  have hu' : uu ∈ pieces p := by rw [pieces, ← ht.len, ← ht.breaks1]; exact hu
  obtain ⟨f, f0, hf⟩ := he uu hu'
  obtain ⟨r, r0, hr⟩ := hb uu hu'
  rw [ht.len] at a3
  have hdef : ∀ u, 0 ≤ u → u ≤ uu.2 - uu.1 → ∃ q, p.func (uu.1 + u) = some q := fun u h1 h2 => hp.defined _ (by linarith) (by linarith)
  refine ⟨r, fun _ => 1, fun x => Real.sqrt (2 - 2 * Real.cos (κ * x)), f, ?_, ?_, r0, ?_, fun _ => Real.sqrt_nonneg _, f0⟩
  · intro u u' v P P' h1 h2 h3 h4 h5 h6 e1 e2
    obtain ⟨q, hq⟩ := hdef u h1 h2
    obtain ⟨q', hq'⟩ := hdef u' h3 h4
    simp only at h2 h4 e1 e2
    rw [ht.func _ _ _ hq] at e1
    rw [ht.func _ _ _ hq'] at e2
    cases e1; cases e2
    rw [rotC_rigid, hf _ _ _ _ (by linarith) (by linarith) (by linarith) (by linarith) hq hq', one_mul, add_sub_add_left_eq_sub]
  · intro u v v' P P' h1 h2 h3 h4 h5 h6 e1 e2
    obtain ⟨q, hq⟩ := hdef u h1 h2
    simp only at h2 e1 e2
    rw [ht.func _ _ _ hq] at e1 e2
    cases e1; cases e2
    rw [rotC_chord, hr u q h1 h2 hq]
    have : Real.cos (κ * (vv.1 + v) - κ * (vv.1 + v')) = Real.cos (κ * |v - v'|) := by
      rcases abs_choice (v - v') with h | h <;> rw [h]
      · congr 1; ring
      · rw [← Real.cos_neg]; congr 1; ring
    rw [this]
  · intro k _ x y z _ _ _ _; simp

theorem sqrt_chord_le (α : ℝ) : Real.sqrt (2 - 2 * Real.cos α) ≤ |α| := by
  rw [← Real.sqrt_sq_eq_abs]
  refine Real.sqrt_le_sqrt ?_
  have := Real.one_sub_sq_div_two_le_cos (x := α)
  linarith

theorem offAxis_le (i : Fin 3) (q : V3) : offAxis i q ≤ V3.norm q := by
  fin_cases i <;> simp only [offAxis, V3.norm, V3.dot] <;> refine Real.sqrt_le_sqrt ?_
  · nlinarith [sq_nonneg q.x]
  · nlinarith [sq_nonneg q.y]
  · nlinarith [sq_nonneg q.z]

theorem turned_lipschitz {s : Surface} {p : Path} {i : Fin 3} {κ : ℝ} (ht : Turned s p i κ) (hp : GoodPath p) {K : ℝ} (hK : 0 ≤ K)
    (hl : LipschitzPath p K) : ∃ K', 0 ≤ K' ∧ LipschitzSurface s K' := by
  obtain ⟨q0, hq0⟩ := hp.defined 0 le_rfl hp.len
  have hbd : ∀ u q, 0 ≤ u → u ≤ p.length → p.func u = some q → offAxis i q ≤ V3.norm q0 + K * p.length := by
    intro u q h1 h2 hq
    refine (offAxis_le i q).trans ?_
    have h3 := dist_triangle' q q0 0
    have h4 := hl u 0 q q0 h1 h2 le_rfl hp.len hq hq0
    rw [sub_zero, abs_of_nonneg h1] at h4
    have h5 : Spec.dist q 0 = V3.norm q := by unfold Spec.dist; congr 1; ext <;> simp
    have h6 : Spec.dist q0 0 = V3.norm q0 := by unfold Spec.dist; congr 1; ext <;> simp
    have h7 : K * u ≤ K * p.length := mul_le_mul_of_nonneg_left h2 hK
    linarith
  have hM : 0 ≤ V3.norm q0 + K * p.length := add_nonneg (norm_nonneg' _) (mul_nonneg hK hp.len)
  have hMk := mul_nonneg hM (abs_nonneg κ)
  refine ⟨K + (V3.norm q0 + K * p.length) * |κ|, by linarith, ?_, ?_⟩
  · intro u u' v P P' h1 h2 h3 h4 h5 h6 e1 e2
    rw [ht.len] at h2 h4
    obtain ⟨q, hq⟩ := hp.defined u h1 h2
    obtain ⟨q', hq'⟩ := hp.defined u' h3 h4
    rw [ht.func _ _ _ hq] at e1
    rw [ht.func _ _ _ hq'] at e2
    cases e1; cases e2
    rw [rotC_rigid]
    have := hl _ _ _ _ h1 h2 h3 h4 hq hq'
    nlinarith [abs_nonneg (u - u')]
  · intro u v v' P P' h1 h2 h3 h4 h5 h6 e1 e2
    rw [ht.len] at h2
    obtain ⟨q, hq⟩ := hp.defined u h1 h2
    rw [ht.func _ _ _ hq] at e1 e2
    cases e1; cases e2
    rw [rotC_chord]
    have g1 := hbd u q h1 h2 hq
    have g2 := sqrt_chord_le (κ * v - κ * v')
    rw [show |κ * v - κ * v'| = |κ| * |v - v'| by rw [← mul_sub, abs_mul]] at g2
    have g3 : 0 ≤ offAxis i q := by fin_cases i <;> exact Real.sqrt_nonneg _
    calc _ ≤ (V3.norm q0 + K * p.length) * (|κ| * |v - v'|) := mul_le_mul g1 g2 (Real.sqrt_nonneg _) hM
      _ ≤ _ := by nlinarith [abs_nonneg (v - v'), mul_nonneg hK (abs_nonneg (v - v'))]

theorem turned_tame {s : Surface} {p : Path} {i : Fin 3} {κ : ℝ} (ht : Turned s p i κ) (hp : GoodPath p) {K : ℝ} (hK : 0 ≤ K)
    (hl : LipschitzPath p K) (he : EvenPath p) (hb : SlimPath i p) : Tame s :=
  ⟨turned_good ht hp, Or.inr ht.breaks2, turned_ruled ht hp he hb, turned_lipschitz ht hp hK hl⟩

theorem revolve_turned {p : Path} {rAvg : ℝ} (hr : 0 < rAvg) (angle : ℝ) :
    Turned (p.revolveX rAvg angle) p 0 (angle / (2 * Real.pi * rAvg)) ∧ Turned (p.revolveY rAvg angle) p 1 (-(angle / (2 * Real.pi * rAvg))) ∧
    Turned (p.revolveZ rAvg angle) p 2 (angle / (2 * Real.pi * rAvg)) := by
  have hl : 0 ≤ 2 * Real.pi * rAvg := by positivity
  refine ⟨⟨rfl, rfl, rfl, hl, fun u v q hq => ?_⟩, ⟨rfl, rfl, rfl, hl, fun u v q hq => ?_⟩, ⟨rfl, rfl, rfl, hl, fun u v q hq => ?_⟩⟩
  · rw [revolveX_func p hr.ne' angle u v hq]; congr 2; ring
  · rw [revolveY_func p hr.ne' angle u v hq]; congr 2; ring
  · rw [revolveZ_func p hr.ne' angle u v hq]; congr 2; ring

/-- Surfaces of revolution of a path of lines and arcs along which the distance to the axis does not bulge are tame. -/
theorem revolve_tame {p : Path} (hp : GoodPath p) {K : ℝ} (hK : 0 ≤ K) (hl : LipschitzPath p K) (he : EvenPath p)
    {rAvg : ℝ} (hr : 0 < rAvg) (angle : ℝ) :
    (SlimPath 0 p → Tame (p.revolveX rAvg angle)) ∧ (SlimPath 1 p → Tame (p.revolveY rAvg angle)) ∧
    (SlimPath 2 p → Tame (p.revolveZ rAvg angle)) := by
  obtain ⟨h0, h1, h2⟩ := revolve_turned (p := p) hr angle
  exact ⟨turned_tame h0 hp hK hl he, turned_tame h1 hp hK hl he, turned_tame h2 hp hK hl he⟩

/-! ## Straight paths -/

theorem quad_le_max {A B C x y z : ℝ} (hC : 0 ≤ C) (h1 : x ≤ y) (h2 : y ≤ z) :
    A + B * y + C * y ^ 2 ≤ max (A + B * x + C * x ^ 2) (A + B * z + C * z ^ 2) := by
  rcases eq_or_lt_of_le (h1.trans h2) with h | h
  · have : y = x := by linarith
    rw [this]; exact le_max_left _ _
  · by_contra hc
    push Not at hc
    obtain ⟨c1, c2⟩ := max_lt_iff.1 hc
    have d1 : 0 ≤ y - x := by linarith
    have d2 : 0 ≤ z - y := by linarith
    have d3 := mul_nonneg hC (mul_nonneg d1 d2)
    rcases eq_or_lt_of_le d1 with h' | h'
    · have : y = x := by linarith
      rw [this] at c1; linarith
    · nlinarith [mul_pos h' (sub_pos.2 c2), mul_nonneg d2 (sub_pos.2 c1).le]

theorem straight_slim {p : Path} (h : StraightPath p) (i : Fin 3) : SlimPath i p := by
  intro uu hu
  obtain ⟨o, d, hod⟩ := h uu hu
  refine ⟨fun x => offAxis i (o + (uu.1 + x) * d), ?_, fun x q h1 h2 hq => ?_⟩
  · intro k _ x y z _ h1 h2 _
    have key : ∀ a b a' b' : ℝ, Real.sqrt ((a + (uu.1 + y) * b) ^ 2 + (a' + (uu.1 + y) * b') ^ 2)
        ≤ max (Real.sqrt ((a + (uu.1 + x) * b) ^ 2 + (a' + (uu.1 + x) * b') ^ 2)) (Real.sqrt ((a + (uu.1 + z) * b) ^ 2 + (a' + (uu.1 + z) * b') ^ 2)) := by
      intro a b a' b'
      rw [max_sqrt]
      refine Real.sqrt_le_sqrt ?_
      have := quad_le_max (A := a ^ 2 + a' ^ 2) (B := 2 * (a * b + a' * b')) (C := b ^ 2 + b' ^ 2) (x := uu.1 + x) (y := uu.1 + y) (z := uu.1 + z)
        (by positivity) (by linarith) (by linarith)
      ring_nf at this ⊢
      exact this
    fin_cases i <;> simp only [offAxis, Fin.zero_eta, Fin.mk_one, Fin.reduceFinMk, V3.add_x, V3.add_y, V3.add_z, V3.smul_x, V3.smul_y, V3.smul_z] <;> exact key _ _ _ _
  · rw [hod _ (by linarith) (by linarith)] at hq
    cases hq; rfl

theorem straight_dist (o d : V3) (u u' : ℝ) : Spec.dist (o + u * d) (o + u' * d) = |u - u'| * V3.norm d := by
  have : (o + u * d) - (o + u' * d) = (u - u') * d := by ext <;> simp <;> ring
  unfold Spec.dist
  rw [this, norm_smul']

theorem straight_even {p : Path} (h : StraightPath p) : EvenPath p := by
  intro uu hu
  obtain ⟨o, d, hod⟩ := h uu hu
  refine ⟨fun x => |x| * V3.norm d, fun x => mul_nonneg (abs_nonneg _) (norm_nonneg' _), fun u u' q q' h1 h2 h3 h4 e1 e2 => ?_⟩
  rw [hod _ h1 h2] at e1
  rw [hod _ h3 h4] at e2
  cases e1; cases e2
  simp only [straight_dist, abs_abs]

/-- A path that is not fast between its breakpoints is not fast. -/
theorem lipschitz_pieces {f : ℝ → Option V3} {K : ℝ} : ∀ (l : List ℝ) (a : ℝ), (a :: l).Pairwise (· ≤ ·) →
    (∀ u, a ≤ u → u ≤ l.getLastD a → ∃ q, f u = some q) →
    (∀ uu ∈ Surface.pairs (a :: l), ∀ u u' q q', uu.1 ≤ u → u ≤ uu.2 → uu.1 ≤ u' → u' ≤ uu.2 → f u = some q → f u' = some q' → Spec.dist q q' ≤ K * |u - u'|) →
    ∀ u u' q q', a ≤ u → u ≤ u' → u' ≤ l.getLastD a → f u = some q → f u' = some q' → u = u' ∨ Spec.dist q q' ≤ K * |u - u'|
  | [], a, _, _, _ => by
    intro u u' q q' h1 h2 h3 _ _
    simp at h3
    left; linarith
  | b :: l, a, hs, hd, hp => by
    have hab : a ≤ b := (List.pairwise_cons.1 hs).1 b (by simp)
    have hlast : (b :: l).getLastD a = l.getLastD b := by rw [List.getLastD_cons]
    have hbl : b ≤ l.getLastD b := by
      cases l with
      | nil => simp
      | cons c l => 
        rw [List.getLastD_cons]
        refine (List.pairwise_cons.1 (List.pairwise_cons.1 hs).2).1 _ ?_
        cases l with
        | nil => simp
        | cons d l => rw [List.getLastD_cons]; exact List.mem_cons_of_mem _ (by rw [← List.getLast_eq_getLastD (by simp : d :: l ≠ [])]; exact List.getLast_mem _)
    rw [hlast] at hd ⊢
    have ih := lipschitz_pieces l b (List.pairwise_cons.1 hs).2 (fun u h1 h2 => hd u (hab.trans h1) h2)
      (fun uu huu => hp uu (by simp only [Surface.pairs, List.tail_cons] at huu ⊢; cases l <;> simp_all))
    have hp0 := hp (a, b) (by simp [Surface.pairs])
    intro u u' q q' h1 h2 h3 e1 e2
    rcases le_total u' b with h | h
    · right; exact hp0 u u' q q' h1 (h2.trans h) (h1.trans h2) h e1 e2
    · rcases le_total b u with h' | h'
      · exact ih u u' q q' h' h2 h3 e1 e2
      · obtain ⟨m, hm⟩ := hd b hab hbl
        have g1 := hp0 u b q m h1 h' hab le_rfl e1 hm
        rcases ih b u' m q' le_rfl h h3 hm e2 with g2 | g2
        · subst g2; rw [hm] at e2; cases e2; right; exact g1
        · right
          refine (dist_triangle' q m q').trans ((add_le_add g1 g2).trans (le_of_eq ?_))
          rw [abs_of_nonpos (by linarith), abs_of_nonpos (by linarith), abs_of_nonpos (by linarith)]; ring

end Traceon
