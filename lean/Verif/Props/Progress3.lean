import Verif.Props.Progress2
import Verif.Lemmas.BoundedForce

/-!
# C79 for the tracers of the program, and examples
-/
namespace Traceon
open V3 Spec

/-- **C79** for the tracer of 3D fields: a call of the C routine for a moving particle returns, unless the trajectory hits a point charge inside the box. -/
theorem C79_tracer_3d (f : Field3DBEM) (b : Option UserBounds) (bounds : Bounds) (atol : ℝ) (ha : 0 < atol) (B : Nat) (hB : 2 ≤ B) (s : Row) (hv : s.2.vel ≠ 0)
    (hoff : ∀ row, Relation.ReflTransGen (Follows constEM (tracer3dForce f b) bounds atol) s row → InBox bounds row.2.pos → OffCharges f.elec (vec row.2) ∧ OffCharges f.mag (vec row.2)) :
    ∃ fuel rows, traceParticleC (tracer3dForce f b) bounds atol B fuel s = some rows :=
  C79_block _ bounds atol ha B hB s hv fun row hr hin => boundedNear_3d f b row.2 (hoff row hr hin).1 (hoff row hr hin).2

/-- **C79** for the tracer of radially symmetric fields, with or without field bounds, on and off the axis. -/
theorem C79_tracer_radial (f : FieldRadialBEM) (b : Option UserBounds) (bounds : Bounds) (atol : ℝ) (ha : 0 < atol) (B : Nat) (hB : 2 ≤ B) (s : Row) (hv : s.2.vel ≠ 0)
    (hoff : ∀ row, Relation.ReflTransGen (Follows constEM (tracerRadialForce f b) bounds atol) s row → InBox bounds row.2.pos →
      OffRings f.elec (vec row.2) ∧ OffRings f.mag (vec row.2) ∧ OffCoils f.cur (vec row.2)) :
    ∃ fuel rows, traceParticleC (tracerRadialForce f b) bounds atol B fuel s = some rows :=
  C79_block _ bounds atol ha B hB s hv fun row hr hin => boundedNear_radial f b row.2 (hoff row hr hin).1 (hoff row hr hin).2.1 (hoff row hr hin).2.2

/-- A point charge outside of the box: every trajectory is traced to the end of its block. -/
example (atol : ℝ) (ha : 0 < atol) (x v : V3) (hv : v ≠ 0) :
    ∃ fuel rows, traceParticleC (tracer3dForce ⟨⟨1, [1], [[1]], [[⟨0, 0, 0⟩]]⟩, ⟨0, [], [], []⟩, none⟩ none) ((1, 2), (-1, 1), (-1, 1)) atol tracingBlockSize fuel (0, ⟨x, v⟩) = some rows := by
  refine C79_tracer_3d _ none _ atol ha _ (by decide) _ hv fun row _ hin => ⟨?_, fun r hr => by simp at hr⟩
  intro r hr q hq h
  simp only [List.mem_singleton] at hr
  subst hr
  simp only [List.mem_singleton] at hq
  subst hq
  have h0 := congrArg V3.x h
  have h1 := hin.1.1
  simp [vec] at h0
  simp only at h1
  linarith

/-- A ring of charge around a box that contains a part of the axis. -/
example (atol : ℝ) (ha : 0 < atol) (x v : V3) (hv : v ≠ 0) :
    ∃ fuel rows, traceParticleC (tracerRadialForce ⟨⟨1, [1], [[1]], [[(5, 0)]]⟩, ⟨0, [], [], []⟩, ⟨0, [], [], []⟩, none⟩ none) ((-1, 1), (-1, 1), (-1, 1)) atol tracingBlockSize fuel (0, ⟨x, v⟩) = some rows := by
  refine C79_tracer_radial _ none _ atol ha _ (by decide) _ hv fun row _ hin => ⟨?_, fun r hr => by simp at hr, fun r hr => by simp at hr⟩
  intro r hr q hq
  simp only [List.mem_singleton] at hr
  subst hr
  simp only [List.mem_singleton] at hq
  subst hq
  refine ⟨by norm_num, fun h => ?_⟩
  have h0 : norm2d row.2.pos.x row.2.pos.y = 5 := congrArg Prod.fst h
  have hsq : norm2d row.2.pos.x row.2.pos.y ^ 2 = row.2.pos.x * row.2.pos.x + row.2.pos.y * row.2.pos.y :=
    Real.sq_sqrt (by nlinarith [mul_self_nonneg row.2.pos.x, mul_self_nonneg row.2.pos.y])
  rw [h0] at hsq
  obtain ⟨⟨a1, a2⟩, ⟨a3, a4⟩, _⟩ := hin
  simp only at a1 a2 a3 a4
  nlinarith

/-- An electron between the plates of a capacitor: the force is zero below z=0 and pulls the electron back above z=0. An electron that is fast enough leaves the box at the other side, and the tracer returns. The fields
are in V/m and the velocity in m/s: the energy corresponds to a voltage of more than (10 + 5 mm) × E. -/
example (E : ℝ) (hE : 0 < E) (atol : ℝ) (ha : 0 < atol) (c : ℝ) (hc : 0 < c) (hfast : 2 * (|constEM| * E) * (0.01 + 0.005) ≤ c ^ 2) :
    ∃ fuel rows, traceParticle (open Classical in fun y => if 0 < y.pos.z then ⟨0, 0, E⟩ else 0) ((-1, 1), (-1, 1), (-1, 0.01)) atol tracingBlockSize fuel 0 ⟨0, 0, c⟩ = some rows := by
  have hem : constEM < 0 := by norm_num [constEM]
  have hn : V3.norm ⟨0, 0, E⟩ = E := by
    unfold V3.norm dot
    rw [show (0 * 0 + 0 * 0 + E * E : ℝ) = E ^ 2 by ring]
    exact Real.sqrt_sq hE.le
  refine C79_leaves _ _ atol ha _ (by decide) 0 ⟨0, 0, c⟩ ⟨0, 0, 1⟩ (by unfold V3.norm dot; norm_num) (|constEM| * E) (|constEM| * E) 0.01 (by positivity) ?_ ?_ ?_ ?_ ?_
  · intro y
    beta_reduce
    split_ifs
    · rw [hn]
    · simp [V3.norm, dot]; positivity
  · intro y
    beta_reduce
    split_ifs
    · simp [dot, abs_of_neg hem]
    · simp [dot]; positivity
  · intro p hp
    have := hp.2.2.2
    simp [dot] at this ⊢
    linarith
  · simpa [dot] using hc
  · simpa [dot] using hfast

/-- A particle at rest in the box is the exception: the step length is infinite, every stage NaN, and the loop never ends. -/
theorem C79_at_rest (field : Phase → V3) (bounds : Bounds) (atol : ℝ) (B fuel : Nat) (x : V3) (hx : InBox bounds x) : traceParticle field bounds atol B fuel x 0 = none := by
  unfold traceParticle
  rw [traceWrapper_eq]
  cases fuel with
  | zero => rfl
  | succ f =>
    have : traceParticleC field bounds atol B (f + 1) (0, ⟨x, 0⟩) = none := by
      unfold traceParticleC
      simp only
      rw [if_pos ⟨by simp [V3.norm, dot], hx⟩]
    rw [traceBlocks, this]
    rfl

end Traceon
