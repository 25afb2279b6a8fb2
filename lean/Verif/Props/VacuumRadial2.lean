import Verif.Props.VacuumRadial
import Verif.Props.EllipticAccuracy
import Verif.Lemmas.FarTriangle

/-! # Radially symmetric fields satisfy the vacuum equations, final theorems (C109) -/
namespace Traceon
open Real Spec V3

namespace Spec

/-- Magnetic field of the current rings, each according to the law of Biot and Savart. -/
noncomputable def loopsField (e : EffCharges V3) (p : V3) : V3 :=
  ⟨superpose (fun q => (ringField q.x q.z p).x) e, superpose (fun q => (ringField q.x q.z p).y) e, superpose (fun q => (ringField q.x q.z p).z) e⟩

/-- `p` lies on none of the charged rings, whose radii are positive. -/
def ClearOfRings (e : EffCharges (ℝ × ℝ)) (p : V3) : Prop := ∀ row ∈ e.positions, ∀ q ∈ row, 0 < q.1 ∧ OffRing p q.1 q.2

/-- `p` lies on none of the current rings, whose radii are at least `1e-10`. -/
def ClearOfLoops (e : EffCharges V3) (p : V3) : Prop := ∀ row ∈ e.positions, ∀ q ∈ row, 1e-10 ≤ q.x ∧ OffRing p q.x q.z

/-- How far the field that the program returns for charged rings may be from the exact one (**C75**). -/
noncomputable def ringsError (e : EffCharges (ℝ × ℝ)) (p : V3) : ℝ := 4e-13 * absSuperpose (fun q => q.1 / (axisDist p * ringNear q.1 q.2 p)) e

/-- How far the field that the program returns for current rings may be from the exact one (**C75**). -/
noncomputable def loopsError (e : EffCharges V3) (p : V3) : ℝ := 4e-13 * absSuperpose (fun q => ringFar q.x q.z p / (axisDist p * ringNear q.x q.z p)) e

end Spec

theorem gradient_neg {f : V3 → ℝ} {g p : V3} (h : IsGradient f g p) : IsGradient (fun q => -f q) (-g) p := by
  have e : (fun q => -f q) = fun q => -1 * f q := by funext q; ring
  rw [e]; exact (IsGradient.smul h (-1)).eq (by ext <;> simp)

theorem gradient_unique {f : V3 → ℝ} {g g' p : V3} (h : IsGradient f g p) (h' : IsGradient f g' p) : g = g' := by
  have e := HasFDerivAt.unique h h'
  have ex := congrArg (fun L : (ℝ × ℝ × ℝ) →L[ℝ] ℝ => L (1, 0, 0)) e
  have ey := congrArg (fun L : (ℝ × ℝ × ℝ) →L[ℝ] ℝ => L (0, 1, 0)) e
  have ez := congrArg (fun L : (ℝ × ℝ × ℝ) →L[ℝ] ℝ => L (0, 0, 1)) e
  simp at ex ey ez
  ext <;> assumption

theorem norm_add_three (x y : V3) : V3.norm (x + y) ≤ V3.norm x + V3.norm y := by
  have hx : 0 ≤ V3.norm x := Real.sqrt_nonneg (dot x x)
  have hy : 0 ≤ V3.norm y := Real.sqrt_nonneg (dot y y)
  refine Real.sqrt_le_iff.2 ⟨by linarith, ?_⟩
  have h1 := V3.norm_sq x
  have h2 := V3.norm_sq y
  have h3 := (abs_le.1 (V3.abs_dot_le x y)).2
  have e : dot (x + y) (x + y) = dot x x + 2 * dot x y + dot y y := by simp [dot]; ring
  rw [e]; nlinarith

/-- Being off a finite number of rings is an open condition. -/
theorem off_open {P : Type} (rows : List (List P)) (r z : P → ℝ) (p : V3) (h : ∀ row ∈ rows, ∀ q ∈ row, 0 ≤ r q ∧ OffRing p (r q) (z q)) :
    ∀ᶠ v : ℝ × ℝ × ℝ in nhds (p.x, p.y, p.z), ∀ row ∈ rows, ∀ q ∈ row, OffRing ⟨v.1, v.2.1, v.2.2⟩ (r q) (z q) := by
  have key : ∀ q : P, 0 ≤ r q ∧ OffRing p (r q) (z q) → ∀ᶠ v : ℝ × ℝ × ℝ in nhds (p.x, p.y, p.z), OffRing ⟨v.1, v.2.1, v.2.2⟩ (r q) (z q) := by
    rintro q ⟨hr, hq⟩
    have hc : Continuous (fun v : ℝ × ℝ × ℝ => nearSq (norm2d v.1 v.2.1) v.2.2 (r q) (z q)) := by unfold nearSq norm2d; fun_prop
    have h0 : 0 < nearSq (norm2d p.x p.y) p.z (r q) (z q) := (offRing_iff hr).1 hq
    exact (hc.continuousAt.eventually (lt_mem_nhds h0)).mono fun v hv => (offRing_iff (p := ⟨v.1, v.2.1, v.2.2⟩) hr).2 hv
  have fin : ∀ (l : List P), (∀ q ∈ l, 0 ≤ r q ∧ OffRing p (r q) (z q)) →
      ∀ᶠ v : ℝ × ℝ × ℝ in nhds (p.x, p.y, p.z), ∀ q ∈ l, OffRing ⟨v.1, v.2.1, v.2.2⟩ (r q) (z q) := by
    intro l
    induction l with
    | nil => intro _; exact Filter.Eventually.of_forall fun v q hq => by simp at hq
    | cons a l ih =>
      intro hl
      filter_upwards [key a (hl a (by simp)), ih fun q hq => hl q (by simp [hq])] with v h1 h2 q hq
      rcases List.mem_cons.1 hq with rfl | hq
      exacts [h1, h2 q hq]
  exact (fin rows.flatten fun q hq => by obtain ⟨row, h1, h2⟩ := List.mem_flatten.1 hq; exact h row h1 q h2).mono
    fun v hv row hr q hq => hv q (List.mem_flatten.2 ⟨row, hr, hq⟩)

/-- From a neighbourhood to a ball. -/
theorem ball_of_nhds {p : V3} {P : V3 → Prop} (h : ∀ᶠ v : ℝ × ℝ × ℝ in nhds (p.x, p.y, p.z), P ⟨v.1, v.2.1, v.2.2⟩) :
    ∃ ε > 0, ∀ q, V3.norm (q - p) < ε → P q := by
  obtain ⟨ε, hε, hb⟩ := Metric.eventually_nhds_iff.1 h
  refine ⟨ε, hε, fun q hq => hb (y := (q.x, q.y, q.z)) ?_⟩
  have h1 : |q.x - p.x| ≤ V3.norm (q - p) := by
    unfold V3.norm; refine Real.abs_le_sqrt ?_; simp only [dot, V3.sub_x, V3.sub_y, V3.sub_z]; nlinarith [sq_nonneg (q.y - p.y), sq_nonneg (q.z - p.z)]
  have h2 : |q.y - p.y| ≤ V3.norm (q - p) := by
    unfold V3.norm; refine Real.abs_le_sqrt ?_; simp only [dot, V3.sub_x, V3.sub_y, V3.sub_z]; nlinarith [sq_nonneg (q.x - p.x), sq_nonneg (q.z - p.z)]
  have h3 : |q.z - p.z| ≤ V3.norm (q - p) := by
    unfold V3.norm; refine Real.abs_le_sqrt ?_; simp only [dot, V3.sub_x, V3.sub_y, V3.sub_z]; nlinarith [sq_nonneg (q.y - p.y), sq_nonneg (q.x - p.x)]
  rw [Prod.dist_eq, Prod.dist_eq, Real.dist_eq, Real.dist_eq, Real.dist_eq]
  exact max_lt (h1.trans_lt hq) (max_lt (h2.trans_lt hq) (h3.trans_lt hq))

theorem Spec.VacuumField.add {F F' : V3 → V3} {p : V3} (h : VacuumField F p) (h' : VacuumField F' p) : VacuumField (fun q => F q + F' q) p := by
  obtain ⟨gx, gy, gz, h1, h2, h3, h4, h5, h6, h7⟩ := h
  obtain ⟨kx, ky, kz, k1, k2, k3, k4, k5, k6, k7⟩ := h'
  exact ⟨gx + kx, gy + ky, gz + kz, h1.add k1, h2.add k2, h3.add k3, by simp only [V3.add_x, V3.add_y, V3.add_z]; linarith,
    by simp only [V3.add_x, V3.add_y, V3.add_z]; linarith, by simp only [V3.add_x, V3.add_y, V3.add_z]; linarith, by simp only [V3.add_x, V3.add_y, V3.add_z]; linarith⟩

/-- **C109** (charged rings). There is one vector field `E`, minus the gradient of the exact potential of the rings wherever the program does not treat a point as lying
on the axis, which satisfies the vacuum equations at every such point, and the potential satisfies Laplace's equation there. -/
theorem C109_rings (e : EffCharges (ℝ × ℝ)) : ∃ E : V3 → V3, ∀ p, ClearOfRings e p → 1e-10 < axisDist p →
    IsGradient (ringsPotential e) (-E p) p ∧ VacuumField E p ∧ Harmonic (ringsPotential e) p ∧
    V3.norm (fieldRadial p e - E p) ≤ ringsError e p ∧
    |potentialRadial p e - ringsPotential e p| ≤ 4e-13 * absSuperpose (fun q => ringPotential q.1 q.2 p) e := by
  refine ⟨fun q => fieldRadialWith ellK ellE q e, fun p hoff hax => ?_⟩
  have hax' : minDistanceAxis < norm2d p.x p.y := by rw [axisDist_eq]; exact hax
  have hg := ringsPotential_gradient e p hoff (.inr hax.le)
  have hv := rings_vacuum e hax' hoff
  refine ⟨hg, hv, ?_, ?_, C75_potential e p hoff⟩
  · obtain ⟨gx, gy, gz, h1, h2, h3, h4, -⟩ := hv
    obtain ⟨ε, hε, hb⟩ := ball_of_nhds (p := p) (P := fun q => minDistanceAxis < norm2d q.x q.y ∧ ∀ row ∈ e.positions, ∀ t ∈ row, OffRing q t.1 t.2)
      ((off_axis_near hax').and (off_open e.positions (fun q => q.1) (fun q => q.2) p fun row hr q hq => ⟨(hoff row hr q hq).1.le, (hoff row hr q hq).2⟩))
    refine ⟨fun q => -fieldRadialWith ellK ellE q e, ε, -gx, -gy, -gz, hε, fun q hq => ?_, gradient_neg h1, gradient_neg h2, gradient_neg h3, ?_⟩
    · obtain ⟨k1, k2⟩ := hb q hq
      rw [axisDist_eq] at k1
      exact ringsPotential_gradient e q (fun row hr t ht => ⟨(hoff row hr t ht).1, k2 row hr t ht⟩) (.inr k1.le)
    · simp only [V3.neg_x, V3.neg_y, V3.neg_z]; linarith
  · obtain ⟨G, k1, k2⟩ := C75_field e p hoff hax.le
    have : G = -fieldRadialWith ellK ellE p e := gradient_unique k1 hg
    rw [this, show - -fieldRadialWith ellK ellE p e = fieldRadialWith ellK ellE p e by ext <;> simp] at k2
    exact k2

/-- **C109** (current rings). The field of the current rings according to the law of Biot and Savart satisfies the vacuum equations at every point farther than `1e-10`
from the axis that lies on no ring, and `current_field` returns it up to the error of **C75**. -/
theorem C109_loops (e : EffCharges V3) (p : V3) (hoff : ClearOfLoops e p) (hax : 1e-10 < axisDist p) :
    VacuumField (loopsField e) p ∧ V3.norm (currentField p e - loopsField e p) ≤ loopsError e p := by
  have hax' : minDistanceAxis < norm2d p.x p.y := by rw [axisDist_eq]; exact hax
  have hl : ∀ q, loopsField e q = ⟨e.loop (fun t => (ringField t.x t.z q).x), e.loop (fun t => (ringField t.x t.z q).y), e.loop (fun t => (ringField t.x t.z q).z)⟩ := by
    intro q; unfold loopsField; rw [EffCharges.loop_eq, EffCharges.loop_eq, EffCharges.loop_eq]
  constructor
  · refine (loops_vacuum e hax' hoff).near ?_
    filter_upwards [off_axis_near hax', off_open e.positions (fun q => q.x) (fun q => q.z) p
      fun row hr q hq => ⟨le_trans (by norm_num) (hoff row hr q hq).1, (hoff row hr q hq).2⟩] with v h1 h2
    rw [hl]
    refine (C69_current_field e ⟨v.1, v.2.1, v.2.2⟩ (fun row hr t ht => ⟨(hoff row hr t ht).1, h2 row hr t ht⟩) (.inr ?_)).symm
    have : norm2d v.1 v.2.1 = √(v.1 ^ 2 + v.2.1 ^ 2) := axisDist_eq ⟨v.1, v.2.1, v.2.2⟩
    change 1e-10 ≤ √(v.1 ^ 2 + v.2.1 ^ 2)
    rw [← this]; exact h1.le
  · rw [hl]; exact (C75_current_field e p hoff).1 hax.le

/-- **C109** (methods of the field). -/
theorem C109_methods (f : FieldRadialBEM) :
    ∃ φ E ψ H, ∀ p, 1e-10 < axisDist p →
      (ClearOfRings f.elec p → Harmonic φ p ∧ VacuumField E p ∧ IsGradient φ (-E p) p ∧ ∃ u F,
        PyObj.electrostaticPotential p (.radial f) = some u ∧ PyObj.electrostaticField p (.radial f) = some F ∧
        |u - φ p| ≤ 4e-13 * absSuperpose (fun q => ringPotential q.1 q.2 p) f.elec ∧ V3.norm (F - E p) ≤ ringsError f.elec p) ∧
      (ClearOfRings f.mag p → Harmonic ψ p ∧ ∃ u, PyObj.magnetostaticPotential p (.radial f) = some u ∧
        |u - ψ p| ≤ 4e-13 * absSuperpose (fun q => ringPotential q.1 q.2 p) f.mag) ∧
      (ClearOfRings f.mag p → ClearOfLoops f.cur p → VacuumField H p ∧ ∃ F,
        PyObj.magnetostaticField p (.radial f) = some F ∧ V3.norm (F - H p) ≤ ringsError f.mag p + loopsError f.cur p) := by
  obtain ⟨E, hE⟩ := C109_rings f.elec
  obtain ⟨M, hM⟩ := C109_rings f.mag
  refine ⟨ringsPotential f.elec, E, ringsPotential f.mag, fun q => M q + loopsField f.cur q, fun p hax => ⟨fun h => ?_, fun h => ?_, fun h hc => ?_⟩⟩
  · obtain ⟨h1, h2, h3, h4, h5⟩ := hE p h hax
    exact ⟨h3, h2, h1, _, _, rfl, rfl, h5, h4⟩
  · obtain ⟨h1, h2, h3, h4, h5⟩ := hM p h hax
    exact ⟨h3, _, rfl, h5⟩
  · obtain ⟨h1, h2, h3, h4, h5⟩ := hM p h hax
    obtain ⟨k1, k2⟩ := C109_loops f.cur p hc hax
    refine ⟨h2.add k1, _, rfl, ?_⟩
    have e1 : currentField p f.cur + fieldRadial p f.mag - (M p + loopsField f.cur p) = (fieldRadial p f.mag - M p) + (currentField p f.cur - loopsField f.cur p) := by
      ext <;> simp <;> ring
    rw [e1]
    exact (norm_add_three _ _).trans (add_le_add h4 k2)

/-- A field with a charged ring, a ring of magnetic charge and a current ring; off the rings the hypotheses are met. -/
theorem C109_example : let f : FieldRadialBEM := ⟨⟨1, [1], [[1]], [[(1, 0)]]⟩, ⟨1, [2], [[1]], [[(2, 1)]]⟩, ⟨1, [3], [[1]], [[⟨3, 0, -1⟩]]⟩, none⟩
    1e-10 < axisDist ⟨3, 4, 0⟩ ∧ ClearOfRings f.elec ⟨3, 4, 0⟩ ∧ ClearOfRings f.mag ⟨3, 4, 0⟩ ∧ ClearOfLoops f.cur ⟨3, 4, 0⟩ ∧ ¬ ClearOfRings f.elec ⟨1, 0, 0⟩ := by
  have h5 : axisDist ⟨3, 4, 0⟩ = 5 := by unfold axisDist; rw [show (3 : ℝ) ^ 2 + 4 ^ 2 = 5 ^ 2 by norm_num]; exact Real.sqrt_sq (by norm_num)
  have h5' : norm2d 3 4 = 5 := (axisDist_eq ⟨3, 4, 0⟩).trans h5
  refine ⟨by rw [h5]; norm_num, ?_, ?_, ?_, ?_⟩
  · intro row hr q hq
    simp at hr; subst hr; simp at hq; subst hq
    refine ⟨by norm_num, (offRing_iff (by norm_num)).2 ?_⟩
    change 0 < nearSq (norm2d 3 4) 0 1 0; rw [h5']; unfold nearSq; norm_num
  · intro row hr q hq
    simp at hr; subst hr; simp at hq; subst hq
    refine ⟨by norm_num, (offRing_iff (by norm_num)).2 ?_⟩
    change 0 < nearSq (norm2d 3 4) 0 2 1; rw [h5']; unfold nearSq; norm_num
  · intro row hr q hq
    simp at hr; subst hr; simp at hq; subst hq
    refine ⟨by norm_num, (offRing_iff (by norm_num)).2 ?_⟩
    change 0 < nearSq (norm2d 3 4) 0 3 (-1); rw [h5']; unfold nearSq; norm_num
  · intro h
    refine (h [(1, 0)] (by simp) (1, 0) (by simp)).2 0 ?_
    unfold ringPoint; simp

end Traceon
