import Verif.Spec.RingSurface
import Verif.Spec.SolveField
import Verif.Lemmas.RingSurface
import Verif.Props.MatrixRadial2
import Verif.Props.HigherOrder
import Mathlib.MeasureTheory.Constructions.BorelSpace.Metrizable
import Mathlib.MeasureTheory.Integral.Prod
import Mathlib.Tactic.Measurability

/-!
# C111: radial potentials are those of the charged surfaces of revolution
-/
namespace Traceon
open Real Spec V3 MeasureTheory

theorem surfacePotential_eq (l : Line4) (p : V3) : surfacePotential l p = alongElem l fun s => ringPotential s.x s.z p := by
  unfold surfacePotential alongElem ringPotential ringPoint
  refine intervalIntegral.integral_congr fun α _ => ?_
  simp only
  rw [← intervalIntegral.integral_const_mul]
  refine intervalIntegral.integral_congr fun φ _ => ?_
  beta_reduce; ring

theorem straight_eq (a b : V3) : straight a b = ⟨a, b, realThirds.one a b, realThirds.two a b⟩ := rfl

theorem straight_point (a b : V3) (α : ℝ) : elemPoint (straight a b) α = (1 / 2 : ℝ) * (a + b) + α * ((1 / 2 : ℝ) * (b - a)) := by
  unfold elemPoint straight
  ext <;> simp <;> ring

theorem straight_half {a b : V3} (ha : a.y = 0) (hb : b.y = 0) (xa : 0 ≤ a.x) (xb : 0 ≤ b.x) : InHalfPlane (straight a b) := by
  refine ⟨⟨ha, hb, ?_, ?_⟩, ?_⟩
  · simp [straight, ha, hb]
  · simp [straight, ha, hb]
  · rw [straight_point]; simp; linarith

theorem straight_tangent {a b : V3} (ha : a.y = 0) (hb : b.y = 0) (xa : 0 ≤ a.x) (xb : 0 ≤ b.x) (α : ℝ) : V3.norm (elemTangent (straight a b) α) = V3.norm (b - a) / 2 := by
  rw [elemTangent_norm (straight_half ha hb xa xb)]
  unfold lineJac
  rw [straight_eq, (C12_straight a b α).2]
  unfold V3.norm dot
  simp only [V3.sub_x, V3.sub_y, V3.sub_z, ha, hb]
  congr 2; ring

theorem middle_near (p a b : V3) : middleDistance p a b = ringNear ((a.x + b.x) / 2) ((a.z + b.z) / 2) p := rfl

theorem half_norm {a b : V3} (ha : a.y = 0) (hb : b.y = 0) : √(((b.x - a.x) / 2) ^ 2 + ((b.z - a.z) / 2) ^ 2) = V3.norm (b - a) / 2 := by
  have : ((b.x - a.x) / 2) ^ 2 + ((b.z - a.z) / 2) ^ 2 = (1 / 2) ^ 2 * dot (b - a) (b - a) := by
    unfold dot
    simp only [V3.sub_x, V3.sub_y, V3.sub_z, ha, hb]
    ring
  rw [this, Real.sqrt_mul (by norm_num), Real.sqrt_sq (by norm_num)]
  change 1 / 2 * V3.norm (b - a) = _
  ring

theorem seen_aimed {p a b : V3} {ρ : ℝ} (h : SeenFrom p a b ρ) (hne : 0 < V3.norm (b - a)) :
    Aimed p ((a.x + b.x) / 2) ((a.z + b.z) / 2) ((b.x - a.x) / 2) ((b.z - a.z) / 2) ρ where
  len := by rw [half_norm h.ya h.yb]; linarith
  inside := by rw [abs_le]; constructor <;> linarith [h.xa, h.xb]
  small := h.lt_one
  far := by rw [half_norm h.ya h.yb, ← middle_near]; exact h.short
  off := by rw [← middle_near]; exact h.away

theorem straight_xz (a b : V3) (α : ℝ) : (elemPoint (straight a b) α).x = (a.x + b.x) / 2 + α * ((b.x - a.x) / 2) ∧
    (elemPoint (straight a b) α).z = (a.z + b.z) / 2 + α * ((b.z - a.z) / 2) := by
  rw [straight_point]; constructor <;> simp <;> ring

/-- The error of the rule, with the exact elliptic integrals. -/
theorem sumAlong_straight {p a b : V3} {ρ : ℝ} (h : SeenFrom p a b ρ) :
    |sumAlong (straight a b) (fun q => ringPotential q.1 q.2 p) - surfacePotential (straight a b) p| ≤
      π * (a.x + b.x) * V3.norm (b - a) / (4 * π * middleDistance p a b) * (4 * legRest ρ + 1e-16 / (1 - ρ)) := by
  have hD := h.away
  have hpl := straight_half h.ya h.yb h.xa h.xb
  have hh : 0 ≤ V3.norm (b - a) / 2 := by have : 0 ≤ V3.norm (b - a) := Real.sqrt_nonneg _; linarith
  rw [surfacePotential_eq, sumAlong_eq hpl]
  unfold alongElem
  simp only [straight_tangent h.ya h.yb h.xa h.xb, fun α => (straight_xz a b α).1, fun α => (straight_xz a b α).2]
  change |gaussErr fun α => V3.norm (b - a) / 2 * ringPotential ((a.x + b.x) / 2 + α * ((b.x - a.x) / 2)) ((a.z + b.z) / 2 + α * ((b.z - a.z) / 2)) p| ≤ _
  rw [gaussErr_smul, abs_mul, abs_of_nonneg hh]
  rcases hh.eq_or_lt with h0 | h0
  · have hz : V3.norm (b - a) = 0 := by linarith
    rw [hz]; simp
  · have hg := (seen_aimed h (by linarith)).gauss
    refine (mul_le_mul_of_nonneg_left hg hh).trans (le_of_eq ?_)
    rw [← middle_near]
    have := Real.pi_pos.ne'
    field_simp
    ring

theorem ringPotential_nonneg {r : ℝ} (hr : 0 ≤ r) (z : ℝ) (p : V3) : 0 ≤ ringPotential r z p := by
  unfold ringPotential
  refine intervalIntegral.integral_nonneg (by positivity) fun φ _ => ?_
  have : 0 ≤ V3.norm (p - ringPoint r z φ) := Real.sqrt_nonneg _
  positivity

theorem ring_zero (u v z : ℝ) (p : V3) : potentialRadialRing u v 0 z = 0 ∧ ringPotential 0 z p = 0 := by
  constructor
  · unfold potentialRadialRing potentialRingWith; simp
  · unfold ringPotential; simp

/-- The two sums over the 16 points. -/
theorem sumAlong_elliptic {p a b : V3} {ρ : ℝ} (h : SeenFrom p a b ρ) :
    |sumAlong (straight a b) (fun q => potentialRadialRing (norm2d p.x p.y) p.z q.1 q.2) - sumAlong (straight a b) (fun q => ringPotential q.1 q.2 p)| ≤
      4e-13 * sumAlong (straight a b) (fun q => ringPotential q.1 q.2 p) := by
  have hpl := straight_half h.ya h.yb h.xa h.xb
  have hh : 0 ≤ V3.norm (b - a) / 2 := by have : 0 ≤ V3.norm (b - a) := Real.sqrt_nonneg _; linarith
  rw [sumAlong_eq hpl, sumAlong_eq hpl]
  simp only [straight_tangent h.ya h.yb h.xa h.xb]
  rcases hh.eq_or_lt with h0 | h0
  · rw [← h0]; simp [gaussSum]
  have A := seen_aimed h (by linarith)
  rw [gaussSum_smul, gaussSum_smul, ← mul_sub, abs_mul, abs_of_nonneg hh, mul_left_comm]
  refine mul_le_mul_of_nonneg_left ?_ hh
  unfold gaussSum
  have key : ∀ L : List (ℝ × ℝ), (∀ g ∈ L, 0 < g.1 ∧ -1 < g.2 ∧ g.2 < 1) →
      |(L.map fun g => g.1 * potentialRadialRing (norm2d p.x p.y) p.z (elemPoint (straight a b) g.2).x (elemPoint (straight a b) g.2).z).sum -
        (L.map fun g => g.1 * ringPotential (elemPoint (straight a b) g.2).x (elemPoint (straight a b) g.2).z p).sum| ≤
        4e-13 * (L.map fun g => g.1 * ringPotential (elemPoint (straight a b) g.2).x (elemPoint (straight a b) g.2).z p).sum := by
    intro L hL
    induction L with
    | nil => simp
    | cons g L ih =>
      have ih := ih fun k hk => hL k (List.mem_cons_of_mem _ hk)
      obtain ⟨w, g1, g2⟩ := hL g List.mem_cons_self
      simp only [List.map_cons, List.sum_cons]
      have hα : |g.2| ≤ 1 := abs_le.2 ⟨g1.le, g2.le⟩
      have hpt : |potentialRadialRing (norm2d p.x p.y) p.z (elemPoint (straight a b) g.2).x (elemPoint (straight a b) g.2).z -
          ringPotential (elemPoint (straight a b) g.2).x (elemPoint (straight a b) g.2).z p| ≤ 4e-13 * ringPotential (elemPoint (straight a b) g.2).x (elemPoint (straight a b) g.2).z p := by
        have hx : 0 ≤ (elemPoint (straight a b) g.2).x := by
          rw [(straight_xz a b g.2).1]; nlinarith [h.xa, h.xb, mul_nonneg (by linarith : (0 : ℝ) ≤ 1 - g.2) h.xa, mul_nonneg (by linarith : (0 : ℝ) ≤ 1 + g.2) h.xb]
        rcases hx.eq_or_lt with h0 | h0
        · rw [← h0, (ring_zero _ _ _ p).1, (ring_zero 0 0 _ p).2]; simp
        · rw [axisDist_eq]
          refine C75_ring_potential p _ _ h0 fun φ he => ?_
          have := A.point_pos hα φ
          rw [← (straight_xz a b g.2).1, ← (straight_xz a b g.2).2, he] at this
          simp [V3.norm, dot] at this
      have h2 := mul_le_mul_of_nonneg_left hpt w.le
      rw [← abs_of_pos w, ← abs_mul, abs_of_pos w, mul_sub] at h2
      rw [mul_add]
      refine le_trans ?_ (le_trans (add_le_add h2 ih) (le_of_eq (by ring)))
      refine le_trans (le_of_eq ?_) (abs_add_le _ _)
      congr 1; ring
  exact key gaussRule fun g hg => by
    unfold gaussRule at hg
    simp only [List.mem_cons, List.not_mem_nil, or_false] at hg
    rcases hg with rfl | rfl | rfl | rfl | rfl | rfl | rfl | rfl | rfl | rfl | rfl | rfl | rfl | rfl | rfl | rfl <;> norm_num

/-- **C111**, one element: what the solver computes for the potential of a uniformly charged straight element is the potential of the surface of revolution. -/
theorem C111_element {p a b : V3} {ρ : ℝ} (h : SeenFrom p a b ρ) :
    |sumAlong (straight a b) (fun q => potentialRadialRing (norm2d p.x p.y) p.z q.1 q.2) - surfacePotential (straight a b) p| ≤
      4e-13 * surfacePotential (straight a b) p + quadratureBound p a b ρ := by
  have h1 := sumAlong_straight h
  have h2 := sumAlong_elliptic h
  have hD := h.away
  have h3 : 0 ≤ π * (a.x + b.x) * V3.norm (b - a) / (4 * π * middleDistance p a b) := by
    have : 0 ≤ V3.norm (b - a) := Real.sqrt_nonneg _
    have := h.xa
    have := h.xb
    positivity
  have hρ0 : 0 ≤ ρ := by
    have : 0 ≤ V3.norm (b - a) := Real.sqrt_nonneg _
    by_contra hc
    push Not at hc
    nlinarith [h.short, mul_pos (neg_pos.2 hc) hD]
  have h4 := legRest_nonneg hρ0
  have h5 : 0 ≤ 1e-16 / (1 - ρ) := div_nonneg (by norm_num) (by linarith [h.lt_one])
  have e : quadratureBound p a b ρ = π * (a.x + b.x) * V3.norm (b - a) / (4 * π * middleDistance p a b) * (5 * legRest ρ + 2 * (1e-16 / (1 - ρ))) := by
    unfold quadratureBound legRest; ring
  rw [e]
  generalize π * (a.x + b.x) * V3.norm (b - a) / (4 * π * middleDistance p a b) = B at *
  generalize 1e-16 / (1 - ρ) = c at *
  generalize legRest ρ = d at *
  generalize sumAlong (straight a b) (fun q => ringPotential q.1 q.2 p) = S at *
  rw [abs_le] at *
  have := mul_nonneg h3 h4
  have := mul_nonneg h3 h5
  constructor <;> nlinarith

/-- **C111**, the potential of a field object whose elements are straight. -/
theorem C111_potential (p : V3) (a b : Nat → V3) (q ρ : Nat → ℝ) (js : List Nat) (h : ∀ j ∈ js, SeenFrom p (a j) (b j) (ρ j)) :
    |potentialRadial p (lineCharges (js.map fun j => straight (a j) (b j)) (js.map q)) - (js.map fun j => q j * surfacePotential (straight (a j) (b j)) p).sum| ≤
      (js.map fun j => |q j| * (4e-13 * surfacePotential (straight (a j) (b j)) p + quadratureBound p (a j) (b j) (ρ j))).sum := by
  unfold potentialRadial
  rw [EffCharges.loop_eq, superpose_lineCharges]
  induction js with
  | nil => simp
  | cons j js ih =>
    have ih := ih fun k hk => h k (List.mem_cons_of_mem _ hk)
    have h1 := C111_element (h j List.mem_cons_self)
    simp only [List.map_cons, List.sum_cons]
    have h2 := mul_le_mul_of_nonneg_left h1 (abs_nonneg (q j))
    rw [← abs_mul, mul_sub] at h2
    refine le_trans ?_ (add_le_add h2 ih)
    refine le_trans (le_of_eq ?_) (abs_add_le _ _)
    congr 1
    unfold sumAlong
    ring

/-- **C111**, the element on which the point lies (any regular curved element): the integral that the program computes numerically is the potential at its centre of the swept surface. -/
theorem C111_own {l : Line4} (hreg : Spec.Regular l) :
    |(alongElem l fun s => potentialRadialRing (elemPoint l 0).x (elemPoint l 0).z s.x s.z) - surfacePotential l (elemPoint l 0)| ≤
      4e-13 * surfacePotential l (elemPoint l 0) := by
  rw [surfacePotential_eq]
  unfold alongElem
  set f : ℝ → ℝ := fun α => V3.norm (elemTangent l α) * potentialRadialRing (elemPoint l 0).x (elemPoint l 0).z (elemPoint l α).x (elemPoint l α).z with hf
  set g : ℝ → ℝ := fun α => V3.norm (elemTangent l α) * ringPotential (elemPoint l α).x (elemPoint l α).z (elemPoint l 0) with hg
  have hplane := hreg.plane
  have hfi : IntervalIntegrable f volume (-1) 1 := by
    have := C72_own_potential_integrable hreg
    refine this.congr_ae ?_
    refine Filter.Eventually.of_forall fun α => ?_
    simp only [hf, selfPotentialRadial, elemTangent_norm hplane, elemPoint_linePos]
  have hpt : ∀ α ∈ Set.Icc (-1 : ℝ) 1, α ≠ 0 → |f α - g α| ≤ 4e-13 * g α := by
    intro α hα h0
    have hx := hreg.off_axis α hα
    have hoff : OffRing (elemPoint l 0) (elemPoint l α).x (elemPoint l α).z := by
      rw [offRing_iff hx.le]
      unfold nearSq
      rw [elemPoint_y hplane, norm2d_of_nonneg hplane.2]
      by_contra hc
      refine h0 (hreg.once α hα ?_)
      have h1 := sq_nonneg ((elemPoint l α).z - (elemPoint l 0).z)
      have h2 := sq_nonneg ((elemPoint l α).x - (elemPoint l 0).x)
      ext
      · nlinarith
      · rw [elemPoint_y hplane, elemPoint_y hplane]
      · nlinarith
    have h := C75_ring_potential (elemPoint l 0) _ _ hx hoff
    rw [← axisDist_eq, elemPoint_y hplane, norm2d_of_nonneg hplane.2] at h
    have ht : 0 ≤ V3.norm (elemTangent l α) := Real.sqrt_nonneg _
    simp only [hf, hg]
    rw [← mul_sub, abs_mul, abs_of_nonneg ht, mul_left_comm]
    exact mul_le_mul_of_nonneg_left h ht
  have hae : ∀ᵐ α ∂volume, α ≠ (0 : ℝ) := by simp [ae_iff, measure_singleton]
  have hgm : AEStronglyMeasurable g volume := by
    have hx : Measurable fun α => (elemPoint l α).x := by
      unfold elemPoint
      simp only [V3.add_x, V3.smul_x]
      fun_prop
    have hz : Measurable fun α => (elemPoint l α).z := by
      unfold elemPoint
      simp only [V3.add_z, V3.smul_z]
      fun_prop
    have ht : Measurable fun α => V3.norm (elemTangent l α) := by
      simp only [elemTangent_norm hplane]
      unfold lineJac curveJac
      fun_prop
    have hn : Measurable fun w : ℝ × ℝ => V3.norm (elemPoint l 0 - ringPoint (elemPoint l w.1).x (elemPoint l w.1).z w.2) := by
      have hx' := hx.comp (measurable_fst : Measurable (Prod.fst : ℝ × ℝ → ℝ))
      have hz' := hz.comp (measurable_fst : Measurable (Prod.fst : ℝ × ℝ → ℝ))
      have hs : Measurable fun w : ℝ × ℝ => sin w.2 := Real.measurable_sin.comp measurable_snd
      have hc : Measurable fun w : ℝ × ℝ => cos w.2 := Real.measurable_cos.comp measurable_snd
      unfold V3.norm dot ringPoint
      simp only [V3.sub_x, V3.sub_y, V3.sub_z]
      refine Real.continuous_sqrt.measurable.comp ?_
      have h1 := measurable_const (a := (elemPoint l 0).x) |>.sub (hx'.mul hc)
      have h2 := measurable_const (a := (elemPoint l 0).y) |>.sub (hx'.mul hs)
      have h3 := measurable_const (a := (elemPoint l 0).z) |>.sub hz'
      exact ((h1.mul h1).add (h2.mul h2)).add (h3.mul h3)
    have hi : StronglyMeasurable fun α => ringPotential (elemPoint l α).x (elemPoint l α).z (elemPoint l 0) := by
      unfold ringPotential
      simp only [intervalIntegral.integral_of_le (by positivity : (0 : ℝ) ≤ 2 * π)]
      refine StronglyMeasurable.integral_prod_right (f := fun (α φ : ℝ) => (elemPoint l α).x * (1 / (4 * π * V3.norm (elemPoint l 0 - ringPoint (elemPoint l α).x (elemPoint l α).z φ)))) ?_
      refine Measurable.stronglyMeasurable ?_
      exact (hx.comp measurable_fst).mul ((measurable_const.mul hn).const_div 1)
    exact (ht.stronglyMeasurable.mul hi).aestronglyMeasurable
  have hg0 : ∀ α ∈ Set.Icc (-1 : ℝ) 1, 0 ≤ g α := fun α hα => mul_nonneg (Real.sqrt_nonneg _) (ringPotential_nonneg (hreg.off_axis α hα).le _ _)
  have hle : (-1 : ℝ) ≤ 1 := by norm_num
  have hgi : IntervalIntegrable g volume (-1) 1 := by
    refine (hfi.norm.const_mul 2).mono_fun hgm.restrict ?_
    rw [Set.uIoc_of_le hle]
    filter_upwards [ae_restrict_mem measurableSet_Ioc, ae_restrict_of_ae hae] with α hα h0
    have h1 := hpt α ⟨hα.1.le, hα.2⟩ h0
    have h2 := hg0 α ⟨hα.1.le, hα.2⟩
    rw [Real.norm_eq_abs, Real.norm_eq_abs, abs_of_nonneg h2, Real.norm_eq_abs, abs_of_nonneg (by positivity)]
    rw [abs_le] at h1
    have := le_abs_self (f α)
    linarith
  rw [← intervalIntegral.integral_sub hfi hgi, ← intervalIntegral.integral_const_mul]
  refine (intervalIntegral.abs_integral_le_integral_abs hle).trans ?_
  refine intervalIntegral.integral_mono_ae_restrict hle (hfi.sub hgi).abs (hgi.const_mul _) ?_
  filter_upwards [ae_restrict_mem measurableSet_Icc, ae_restrict_of_ae hae] with α hα h0
  exact hpt α hα h0

/-- A straight element is regular if it does not touch the axis and has a length. -/
theorem straight_regular {a b : V3} (ha : a.y = 0) (hb : b.y = 0) (xa : 0 < a.x) (xb : 0 < b.x) (hc : 1e-10 ≤ (a.x + b.x) / 2) (hne : a ≠ b) : Spec.Regular (straight a b) where
  plane := straight_half ha hb xa.le xb.le
  off_axis α hα := by
    rw [(straight_xz a b α).1]
    obtain ⟨h1, h2⟩ := hα
    rcases h1.eq_or_lt with h | h
    · rw [← h]; linarith
    · nlinarith [mul_nonneg (by linarith : (0 : ℝ) ≤ 1 - α) xa.le, mul_pos (by linarith : (0 : ℝ) < 1 + α) xb]
  centre := by rw [(straight_xz a b 0).1]; linarith
  once α hα h := by
    by_contra h0
    refine hne ?_
    rw [straight_point, straight_point] at h
    have hx := congrArg V3.x h
    have hy := congrArg V3.y h
    have hz := congrArg V3.z h
    simp at hx hy hz
    have e : ∀ u v : ℝ, α = 0 ∨ u - v = 0 → v = u := fun u v h => by rcases h with h | h; exact absurd h h0; linarith
    ext
    · exact e _ _ hx
    · exact e _ _ hy
    · exact e _ _ hz
  speed h := by
    have h1 := straight_tangent ha hb xa.le xb.le 0
    rw [h] at h1
    have h2 : V3.norm (b - a) = 0 := by
      have : V3.norm (0 : V3) = 0 := by simp [V3.norm, dot]
      linarith
    have h3 : b - a ≠ 0 := fun h4 => hne (by
      have hx := congrArg V3.x h4
      have hy := congrArg V3.y h4
      have hz := congrArg V3.z h4
      simp at hx hy hz
      ext <;> linarith)
    exact (V3.norm_pos h3).ne' h2

/-- **C111**, the equations that are solved: the potential at the centre of an element, as it enters the matrix, is that of all charged surfaces together, its own included. -/
theorem C111_centre (n : Nat) (l : Nat → Line4) (q ρ : Nat → ℝ) (a b : Nat → V3) (i : Nat) (hi : i < n) (hreg : Spec.Regular (l i))
    (h : ∀ j < n, j ≠ i → l j = straight (a j) (b j) ∧ SeenFrom (elemPoint (l i) 0) (a j) (b j) (ρ j)) :
    |radialPotentialAtCentre n l q i - ((List.range n).map fun j => q j * surfacePotential (l j) (elemPoint (l i) 0)).sum| ≤
      4e-13 * ((List.range n).map fun j => |q j| * surfacePotential (l j) (elemPoint (l i) 0)).sum +
      ((otherElements n i).map fun j => |q j| * quadratureBound (elemPoint (l i) 0) (a j) (b j) (ρ j)).sum := by
  have hmem : ∀ j, j ∈ otherElements n i ↔ j < n ∧ j ≠ i := fun j => by simp [otherElements]
  have split : ∀ g : Nat → ℝ, ((List.range n).map g).sum = ((otherElements n i).map g).sum + g i := by
    intro g
    have key : ∀ L : List Nat, L.Nodup → i ∈ L → (L.map g).sum = ((L.filter (· ≠ i)).map g).sum + g i := by
      intro L hL hm
      induction L with
      | nil => simp at hm
      | cons c L ih =>
        obtain ⟨hc, hL'⟩ := List.nodup_cons.1 hL
        by_cases hci : c = i
        · subst hci
          have : L.filter (· ≠ c) = L := List.filter_eq_self.2 fun d hd => by
            have : d ≠ c := fun e => hc (e ▸ hd)
            simpa using this
          rw [List.filter_cons_of_neg (by simp), this, List.map_cons, List.sum_cons]; ring
        · have hm' : i ∈ L := by rcases List.mem_cons.1 hm with h | h; exact absurd h.symm hci; exact h
          rw [List.filter_cons_of_pos (by simpa using hci), List.map_cons, List.sum_cons, List.map_cons, List.sum_cons, ih hL' hm']; ring
    exact key _ List.nodup_range (List.mem_range.2 hi)
  have e1 : (otherElements n i).map l = (otherElements n i).map fun j => straight (a j) (b j) :=
    List.map_congr_left fun j hj => (h j ((hmem j).1 hj).1 ((hmem j).1 hj).2).1
  have h1 := C111_potential (elemPoint (l i) 0) a b q ρ (otherElements n i) fun j hj => (h j ((hmem j).1 hj).1 ((hmem j).1 hj).2).2
  have e2 : ∀ c : Nat → ℝ, ((otherElements n i).map fun j => c j * surfacePotential (straight (a j) (b j)) (elemPoint (l i) 0)) =
      (otherElements n i).map fun j => c j * surfacePotential (l j) (elemPoint (l i) 0) := fun c =>
    List.map_congr_left fun j hj => by rw [(h j ((hmem j).1 hj).1 ((hmem j).1 hj).2).1]
  have e3 : ((otherElements n i).map fun j => |q j| * (4e-13 * surfacePotential (straight (a j) (b j)) (elemPoint (l i) 0) + quadratureBound (elemPoint (l i) 0) (a j) (b j) (ρ j))).sum =
      4e-13 * ((otherElements n i).map fun j => |q j| * surfacePotential (straight (a j) (b j)) (elemPoint (l i) 0)).sum +
      ((otherElements n i).map fun j => |q j| * quadratureBound (elemPoint (l i) 0) (a j) (b j) (ρ j)).sum := by
    rw [← List.sum_map_mul_left, ← List.sum_map_add]
    congr 1
    exact List.map_congr_left fun j _ => by ring
  rw [e3, e2, e2 fun j => |q j|] at h1
  have h2 := mul_le_mul_of_nonneg_left (C111_own hreg) (abs_nonneg (q i))
  rw [← abs_mul, mul_sub] at h2
  unfold radialPotentialAtCentre othersCharges
  rw [split, split, e1]
  rw [abs_le] at *
  constructor <;> linarith [h1.1, h1.2, h2.1, h2.2]

/-- **C111**, a solved problem: on every element that carries a voltage (or magnetostatic potential) the exact potential of the charged surfaces is, at the centre, the one that
was asked for, up to the stated errors, provided that the other elements are straight and seen from that centre as described. -/
theorem C111_solved {x : Excitation ℝ V3} {s : Excitation.Statics} {coils : EffCharges V3} {e : EffCharges (ℝ × ℝ)} (hS : SolvesRadial x s coils e) :
    ∃ (idx : List Nat) (ls : List Line4) (q : List ℝ), e = lineCharges ls q ∧ ls.length = idx.length ∧ q.length = idx.length ∧
      (∀ i, i ∈ idx ↔ i < x.mesh.lines.length ∧ Excited x s i) ∧
      ∀ k i : Nat, idx[k]? = some i →
        (∃ a b c d l, x.mesh.lines[i]? = some [a, b, c, d] ∧ x.mesh.points[a]? = some l.l0 ∧ x.mesh.points[b]? = some l.l1 ∧
          x.mesh.points[c]? = some l.l2 ∧ x.mesh.points[d]? = some l.l3 ∧ ls[k]? = some l) ∧
        ∀ n v l, Decides x s n i → ls[k]? = some l →
          (x.types.get n = some (.voltageFixed, .num v) ∨ x.types.get n = some (.magnetostaticPot, .num v) ∨ ∃ f, x.types.get n = some (.voltageFun, .fn f) ∧ v = f (elemPoint l 0)) →
          Spec.Regular l → ∀ (a b : Nat → V3) (ρ : Nat → ℝ),
          (∀ j < ls.length, j ≠ k → ls[j]? = some (straight (a j) (b j)) ∧ SeenFrom (elemPoint l 0) (a j) (b j) (ρ j)) →
          |(List.zipWith (fun l' c => c * surfacePotential l' (elemPoint l 0)) ls q).sum - v| ≤
            4e-13 * (List.zipWith (fun l' c => |c| * surfacePotential l' (elemPoint l 0)) ls q).sum +
            ((otherElements ls.length k).map fun j => |q.getD j 0| * quadratureBound (elemPoint l 0) (a j) (b j) (ρ j)).sum := by
  obtain ⟨idx, ls, q, h1, h2, h3, -, h5, h6⟩ := hS
  refine ⟨idx, ls, q, h1, h2, h3, h5, fun k i hk => ⟨(h6 k i hk).1, ?_⟩⟩
  intro n v l hd hl hty hreg a b ρ hseen
  have hc := (h6 k i hk).2 n
  have hkl : k < ls.length := (List.getElem?_eq_some_iff.1 hl).1
  have hgl : ls.getD k ⟨0, 0, 0, 0⟩ = l := by rw [List.getD_eq_getElem?_getD, hl]; rfl
  have hpot : radialPotentialAtCentre ls.length (ls.getD · ⟨0, 0, 0, 0⟩) (q.getD · 0) k = v := by
    rcases hty with h | h | ⟨f, h, rfl⟩
    · exact hc _ hd h
    · exact hc _ hd h
    · have := hc _ hd h
      simp only [ConditionRadial, hgl] at this
      exact this
  have key := C111_centre ls.length (ls.getD · ⟨0, 0, 0, 0⟩) (q.getD · 0) ρ a b k hkl (by rw [hgl]; exact hreg) (by
    intro j hj hne
    obtain ⟨e1, e2⟩ := hseen j hj hne
    refine ⟨by rw [List.getD_eq_getElem?_getD, e1]; rfl, ?_⟩
    simp only [hgl]
    exact e2)
  rw [hpot] at key
  simp only [hgl] at key
  have hz : ∀ g : Line4 → ℝ → ℝ, List.zipWith g ls q = (List.range ls.length).map fun j => g (ls.getD j ⟨0, 0, 0, 0⟩) (q.getD j 0) := by
    intro g
    refine List.ext_getElem (by simp [h2, h3]) fun j hj1 hj2 => ?_
    have hj : j < ls.length := by simpa using hj2
    have hj' : j < q.length := by omega
    simp [hj, hj']
  rw [hz, hz, abs_sub_comm]
  exact key

/-- The hypotheses are met by two parallel rings, a distance 2 apart. -/
example : (∀ q : Nat → ℝ, |radialPotentialAtCentre 2 (fun j => straight ⟨1, 0, 2 * j⟩ ⟨2, 0, 2 * j⟩) q 0 -
      ((List.range 2).map fun j => q j * surfacePotential (straight ⟨1, 0, 2 * j⟩ ⟨2, 0, 2 * j⟩) (elemPoint (straight ⟨1, 0, 2 * (0 : ℕ)⟩ ⟨2, 0, 2 * (0 : ℕ)⟩) 0)).sum| ≤
      4e-13 * ((List.range 2).map fun j => |q j| * surfacePotential (straight ⟨1, 0, 2 * j⟩ ⟨2, 0, 2 * j⟩) (elemPoint (straight ⟨1, 0, 2 * (0 : ℕ)⟩ ⟨2, 0, 2 * (0 : ℕ)⟩) 0)).sum + |q 1| * 1e-15) := by
  intro q
  have hl : ∀ j : ℕ, V3.norm ((⟨2, 0, 2 * j⟩ : V3) - ⟨1, 0, 2 * j⟩) = 1 := fun j => by unfold V3.norm dot; norm_num
  have hp : elemPoint (straight ⟨1, 0, 2 * (0 : ℕ)⟩ ⟨2, 0, 2 * (0 : ℕ)⟩) 0 = ⟨3 / 2, 0, 0⟩ := by rw [straight_point]; ext <;> norm_num
  have hm : middleDistance ⟨3 / 2, 0, 0⟩ ⟨1, 0, 2 * (1 : ℕ)⟩ ⟨2, 0, 2 * (1 : ℕ)⟩ = 2 := by
    unfold middleDistance
    rw [show √((3 / 2 : ℝ) ^ 2 + 0 ^ 2) = 3 / 2 by rw [zero_pow two_ne_zero, add_zero]; exact Real.sqrt_sq (by norm_num)]
    rw [Real.sqrt_eq_iff_mul_self_eq_of_pos] <;> norm_num
  have hb : quadratureBound ⟨3 / 2, 0, 0⟩ ⟨1, 0, 2 * (1 : ℕ)⟩ ⟨2, 0, 2 * (1 : ℕ)⟩ (1 / 4) ≤ 1e-15 := by
    unfold quadratureBound
    rw [hm, hl 1]
    have := Real.pi_pos.ne'
    have e : π * ((1 : ℝ) + 2) * 1 / (4 * π * 2) = 3 / 8 := by field_simp; norm_num
    simp only
    rw [e]
    norm_num
  have key := C111_centre 2 (fun j => straight ⟨1, 0, 2 * j⟩ ⟨2, 0, 2 * j⟩) q (fun _ => 1 / 4) (fun j => ⟨1, 0, 2 * j⟩) (fun j => ⟨2, 0, 2 * j⟩) 0 (by norm_num)
    (straight_regular rfl rfl (by norm_num) (by norm_num) (by norm_num) fun h => by have := congrArg V3.x h; norm_num at this) (by
      intro j hj hne
      obtain rfl : j = 1 := by omega
      refine ⟨rfl, ?_⟩
      rw [hp]
      exact ⟨rfl, rfl, by norm_num, by norm_num, by rw [hm]; norm_num, by rw [hm, hl 1]; norm_num, by norm_num⟩)
  refine key.trans (add_le_add le_rfl ?_)
  have ho : otherElements 2 0 = [1] := rfl
  rw [ho, List.map_singleton, List.sum_singleton, hp]
  exact mul_le_mul_of_nonneg_left hb (abs_nonneg _)

end Traceon
