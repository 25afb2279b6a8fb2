import Verif.Props.MatrixRadial
import Mathlib.Analysis.SpecialFunctions.Integrals.Basic

/-!
# C72: the integrals on the diagonal exist

The potential of an element at its own centre has a logarithmic singularity there, and so has the normal field.
-/
namespace Traceon
open Spec MeasureTheory

/-- A continuous function plus the logarithm times a continuous function, except at 0. -/
def LogCont (f : ℝ → ℝ) : Prop :=
  ∃ A B : ℝ → ℝ, ContinuousOn A (Set.Icc (-1) 1) ∧ ContinuousOn B (Set.Icc (-1) 1) ∧ ∀ α ∈ Set.Icc (-1 : ℝ) 1, α ≠ 0 → f α = A α + Real.log α * B α

theorem LogCont.intervalIntegrable {f : ℝ → ℝ} (h : LogCont f) : IntervalIntegrable f volume (-1) 1 := by
  obtain ⟨A, B, hA, hB, hf⟩ := h
  have hu : Set.uIcc (-1 : ℝ) 1 = Set.Icc (-1) 1 := Set.uIcc_of_le (by norm_num)
  have h1 : IntervalIntegrable (fun α => A α + Real.log α * B α) volume (-1) 1 := by
    apply IntervalIntegrable.add
    · apply ContinuousOn.intervalIntegrable; rw [hu]; exact hA
    · apply IntervalIntegrable.mul_continuousOn intervalIntegral.intervalIntegrable_log'
      rw [hu]; exact hB
  refine h1.congr_ae ?_
  have h0 : ∀ᵐ α : ℝ ∂volume, α ≠ 0 := by
    rw [ae_iff]; simp
  rw [Filter.EventuallyEq, ae_restrict_iff' measurableSet_uIoc]
  filter_upwards [h0] with α hα hm
  refine (hf α ?_ hα).symm
  rw [← hu]
  exact Set.uIoc_subset_uIcc hm

theorem LogCont.cont {f : ℝ → ℝ} (h : ContinuousOn f (Set.Icc (-1) 1)) : LogCont f :=
  ⟨f, fun _ => 0, h, continuousOn_const, fun α _ _ => by ring⟩

theorem LogCont.add {f g : ℝ → ℝ} (hf : LogCont f) (hg : LogCont g) : LogCont fun α => f α + g α := by
  obtain ⟨A, B, hA, hB, h⟩ := hf
  obtain ⟨A', B', hA', hB', h'⟩ := hg
  exact ⟨fun α => A α + A' α, fun α => B α + B' α, hA.add hA', hB.add hB', fun α hα h0 => by beta_reduce; rw [h α hα h0, h' α hα h0]; ring⟩

theorem LogCont.mul {f g : ℝ → ℝ} (hf : ContinuousOn f (Set.Icc (-1) 1)) (hg : LogCont g) : LogCont fun α => f α * g α := by
  obtain ⟨A', B', hA', hB', h'⟩ := hg
  exact ⟨fun α => f α * A' α, fun α => f α * B' α, hf.mul hA', hf.mul hB', fun α hα h0 => by beta_reduce; rw [h' α hα h0]; ring⟩

theorem LogCont.congr {f g : ℝ → ℝ} (hf : LogCont f) (h : ∀ α ∈ Set.Icc (-1 : ℝ) 1, α ≠ 0 → g α = f α) : LogCont g := by
  obtain ⟨A, B, hA, hB, h'⟩ := hf
  exact ⟨A, B, hA, hB, fun α hα h0 => by rw [h α hα h0, h' α hα h0]⟩

theorem chebSum_parts (ab : List (ℝ × ℝ)) : ∃ P Q : ℝ → ℝ, Continuous P ∧ Continuous Q ∧ ∀ p L, chebSum p L ab = P p + L * Q p := by
  unfold chebSum
  suffices H : ∀ (l : List (Nat × ℝ × ℝ)) (P0 Q0 : ℝ → ℝ), Continuous P0 → Continuous Q0 →
      ∃ P Q : ℝ → ℝ, Continuous P ∧ Continuous Q ∧ ∀ p L : ℝ, l.foldl (fun s t => s + (t.2.1 + L * t.2.2) * p ^ t.1) (P0 p + L * Q0 p) = P p + L * Q p by
    obtain ⟨P, Q, h1, h2, h3⟩ := H ((List.range ab.length).zip ab) (fun _ => 0) (fun _ => 0) continuous_const continuous_const
    exact ⟨P, Q, h1, h2, fun p L => by rw [← h3 p L]; simp⟩
  intro l
  induction l with
  | nil => intro P0 Q0 h1 h2; exact ⟨P0, Q0, h1, h2, fun p L => rfl⟩
  | cons t l ih =>
    intro P0 Q0 h1 h2
    obtain ⟨P, Q, k1, k2, k3⟩ := ih (fun p => P0 p + t.2.1 * p ^ t.1) (fun p => Q0 p + t.2.2 * p ^ t.1) (by fun_prop) (by fun_prop)
    refine ⟨P, Q, k1, k2, fun p L => ?_⟩
    rw [← k3 p L, List.foldl_cons]
    congr 1
    ring

/-- The approximations of the elliptic integrals for an argument that vanishes like `α²`. -/
theorem LogCont.cheb (ab : List (ℝ × ℝ)) {s : ℝ → ℝ} (hs : ContinuousOn s (Set.Icc (-1) 1)) (hpos : ∀ α ∈ Set.Icc (-1 : ℝ) 1, 0 < s α) :
    LogCont fun α => chebSum (α ^ 2 * s α) (Real.log (1 / (α ^ 2 * s α))) ab := by
  obtain ⟨P, Q, hP, hQ, h⟩ := chebSum_parts ab
  have hc : ContinuousOn (fun α => α ^ 2 * s α) (Set.Icc (-1) 1) := (continuousOn_id.pow 2).mul hs
  have hl : ContinuousOn (fun α => Real.log (s α)) (Set.Icc (-1) 1) := hs.log fun α hα => (hpos α hα).ne'
  refine ⟨fun α => P (α ^ 2 * s α) - Real.log (s α) * Q (α ^ 2 * s α), fun α => -2 * Q (α ^ 2 * s α), ?_, ?_, ?_⟩
  · exact (hP.comp_continuousOn hc).sub (hl.mul (hQ.comp_continuousOn hc))
  · exact continuousOn_const.mul (hQ.comp_continuousOn hc)
  · intro α hα h0
    beta_reduce
    rw [h, one_div, Real.log_inv, Real.log_mul (pow_ne_zero 2 h0) (hpos α hα).ne', Real.log_pow]
    push_cast
    ring

/-- The element stays away from the axis and does not pass its centre twice. -/
structure Spec.Regular (l : Line4) : Prop where
  plane : InHalfPlane l
  off_axis : ∀ α ∈ Set.Icc (-1 : ℝ) 1, 0 < (elemPoint l α).x
  centre : 1e-10 ≤ (elemPoint l 0).x
  once : ∀ α ∈ Set.Icc (-1 : ℝ) 1, elemPoint l α = elemPoint l 0 → α = 0
  speed : elemTangent l 0 ≠ 0

/-- The direction from the centre to the point `α`, divided by `α`, one coordinate. -/
noncomputable def chord (α v1 v2 v3 v4 : ℝ) : ℝ :=
  (α * (9*v4 - 9*v3 - 9*v2 + 9*v1) + α^2 * (9*v4 - 27*v3 + 27*v2 - 9*v1) + (-v4 + 27*v3 - 27*v2 + v1)) / 16

theorem chord_spec (α v1 v2 v3 v4 : ℝ) : curvePos1 α v1 v2 v3 v4 - curvePos1 0 v1 v2 v3 v4 = α * chord α v1 v2 v3 v4 := by
  unfold curvePos1 chord; ring

theorem chord_zero (v1 v2 v3 v4 : ℝ) : chord 0 v1 v2 v3 v4 = curveTan1 0 v1 v2 v3 v4 := by
  unfold curveTan1 chord; ring

/-- The second order part of the chord. -/
noncomputable def chord2 (α v1 v2 v3 v4 : ℝ) : ℝ := ((9*v4 - 9*v3 - 9*v2 + 9*v1) + α * (9*v4 - 27*v3 + 27*v2 - 9*v1)) / 16

theorem chord_split (α v1 v2 v3 v4 : ℝ) : chord α v1 v2 v3 v4 = curveTan1 0 v1 v2 v3 v4 + α * chord2 α v1 v2 v3 v4 := by
  unfold curveTan1 chord chord2; ring

section
variable {l : Line4} (hreg : Regular l)
include hreg

theorem chord_pos (α : ℝ) (hα : α ∈ Set.Icc (-1 : ℝ) 1) :
    0 < chord α l.l0.x l.l2.x l.l3.x l.l1.x ^ 2 + chord α l.l0.z l.l2.z l.l3.z l.l1.z ^ 2 := by
  by_contra hcon
  have h1 : chord α l.l0.x l.l2.x l.l3.x l.l1.x = 0 := by nlinarith [sq_nonneg (chord α l.l0.x l.l2.x l.l3.x l.l1.x), sq_nonneg (chord α l.l0.z l.l2.z l.l3.z l.l1.z)]
  have h2 : chord α l.l0.z l.l2.z l.l3.z l.l1.z = 0 := by nlinarith [sq_nonneg (chord α l.l0.x l.l2.x l.l3.x l.l1.x), sq_nonneg (chord α l.l0.z l.l2.z l.l3.z l.l1.z)]
  have hx := chord_spec α l.l0.x l.l2.x l.l3.x l.l1.x
  have hz := chord_spec α l.l0.z l.l2.z l.l3.z l.l1.z
  rw [h1, mul_zero] at hx
  rw [h2, mul_zero] at hz
  have e1 := elemPoint_linePos l α
  have e0 := elemPoint_linePos l 0
  unfold linePos curvePos at e1 e0
  simp only [Prod.mk.injEq] at e1 e0
  have : α = 0 := by
    refine hreg.once α hα ?_
    ext
    · rw [← e1.1, ← e0.1]; linarith
    · rw [elemPoint_y hreg.plane, elemPoint_y hreg.plane]
    · rw [← e1.2, ← e0.2]; linarith
  subst this
  apply hreg.speed
  ext
  · rw [elemTangent_x, ← chord_zero, h1]; rfl
  · rw [elemTangent_y hreg.plane]; rfl
  · rw [elemTangent_z, ← chord_zero, h2]; rfl

theorem regular_r (α : ℝ) (hα : α ∈ Set.Icc (-1 : ℝ) 1) : 0 < curvePos1 α l.l0.x l.l2.x l.l3.x l.l1.x := by
  have := hreg.off_axis α hα
  have e1 := elemPoint_linePos l α
  unfold linePos curvePos at e1
  simp only [Prod.mk.injEq] at e1
  rw [e1.1]; exact this

/-- **C72.** The integral that gives the potential of an element at its own centre exists. -/
theorem C72_own_potential_integrable : IntervalIntegrable (fun α => selfPotentialRadial α l) volume (-1) 1 := by
  apply LogCont.intervalIntegrable
  set r : ℝ → ℝ := fun α => curvePos1 α l.l0.x l.l2.x l.l3.x l.l1.x with hr
  set z : ℝ → ℝ := fun α => curvePos1 α l.l0.z l.l2.z l.l3.z l.l1.z with hz
  set g1 : ℝ → ℝ := fun α => chord α l.l0.x l.l2.x l.l3.x l.l1.x with hg1
  set g2 : ℝ → ℝ := fun α => chord α l.l0.z l.l2.z l.l3.z l.l1.z with hg2
  set D : ℝ → ℝ := fun α => (z α - z 0) ^ 2 + (r α + r 0) ^ 2 with hD
  have cr : Continuous r := by rw [hr]; unfold curvePos1; fun_prop
  have cz : Continuous z := by rw [hz]; unfold curvePos1; fun_prop
  have cg1 : Continuous g1 := by rw [hg1]; unfold chord; fun_prop
  have cg2 : Continuous g2 := by rw [hg2]; unfold chord; fun_prop
  have cD : Continuous D := by rw [hD]; fun_prop
  have r0 : 0 < r 0 := regular_r hreg 0 (by norm_num)
  have hDpos : ∀ α ∈ Set.Icc (-1 : ℝ) 1, 0 < D α := by
    intro α hα
    have := regular_r hreg α hα
    have h2 : 0 < r α + r 0 := by simp only [hr] at r0 ⊢; linarith
    simp only [hD]; positivity
  have key := LogCont.cheb [(Real.log 4, 1 / 2), (9.65736020516771e-2, 1.24999998585309e-1), (3.08909633861795e-2, 7.03114105853296e-2),
   (1.52618320622534e-2, 4.87379510945218e-2), (1.25565693543211e-2, 3.57218443007327e-2), (1.68695685967517e-2, 2.09857677336790e-2),
   (1.09423810688623e-2, 5.81807961871996e-3), (1.40704915496101e-3, 3.42805719229748e-4)] (s := fun α => (g1 α ^ 2 + g2 α ^ 2) / D α)
    (ContinuousOn.div (by fun_prop) cD.continuousOn fun α hα => (hDpos α hα).ne') (fun α hα => div_pos (chord_pos hreg α hα) (hDpos α hα))
  have cj : Continuous (fun α => lineJac l α) := by unfold lineJac curveJac; fun_prop
  have main := LogCont.mul (f := fun α => lineJac l α * (1 / Real.pi * r α / Real.sqrt (D α))) ?_ key
  · refine main.congr fun α hα h0 => ?_
    have e1 : r α - r 0 = α * g1 α := chord_spec α _ _ _ _
    have e2 : z α - z 0 = α * g2 α := chord_spec α _ _ _ _
    have et : ((z α - z 0) ^ 2 + (r α - r 0) ^ 2) / ((z α - z 0) ^ 2 + (r α - r 0) ^ 2 + 4 * r 0 * (r α - r 0) + 4 * r 0 ^ 2) =
        α ^ 2 * ((g1 α ^ 2 + g2 α ^ 2) / D α) := by
      have : (z α - z 0) ^ 2 + (r α - r 0) ^ 2 + 4 * r 0 * (r α - r 0) + 4 * r 0 ^ 2 = D α := by simp only [hD]; ring
      rw [this, e1, e2]; ring
    have ed : (z α - z 0) ^ 2 + (r α - r 0 + 2 * r 0) ^ 2 = D α := by simp only [hD]; ring
    change lineJac l α * (1 / Real.pi * ellipkm1 (((z α - z 0) ^ 2 + (r α - r 0) ^ 2) / ((z α - z 0) ^ 2 + (r α - r 0) ^ 2 + 4 * r 0 * (r α - r 0) + 4 * r 0 ^ 2)) *
      (r α - r 0 + r 0) / Real.sqrt ((z α - z 0) ^ 2 + (r α - r 0 + 2 * r 0) ^ 2)) = _
    rw [et, ed]
    unfold ellipkm1
    ring
  · apply ContinuousOn.mul cj.continuousOn
    apply ContinuousOn.div (by fun_prop) (cD.sqrt).continuousOn
    intro α hα
    exact (Real.sqrt_pos.2 (hDpos α hα)).ne'

/-- **C72.** The integral that gives the mean normal field of an element at its own centre exists. -/
theorem C72_own_field_integrable (K : ℝ) : IntervalIntegrable (fun α => selfFieldDotNormalRadial α l K) volume (-1) 1 := by
  apply LogCont.intervalIntegrable
  set r : ℝ → ℝ := fun α => curvePos1 α l.l0.x l.l2.x l.l3.x l.l1.x with hr
  set z : ℝ → ℝ := fun α => curvePos1 α l.l0.z l.l2.z l.l3.z l.l1.z with hz
  set g1 : ℝ → ℝ := fun α => chord α l.l0.x l.l2.x l.l3.x l.l1.x with hg1
  set g2 : ℝ → ℝ := fun α => chord α l.l0.z l.l2.z l.l3.z l.l1.z with hg2
  set D : ℝ → ℝ := fun α => (z α - z 0) ^ 2 + (r α + r 0) ^ 2 with hD
  set d : ℝ → ℝ := fun α => g1 α ^ 2 + g2 α ^ 2 with hd
  set n1 := (lineNormal l).1 with hn1
  set n2 := (lineNormal l).2 with hn2
  set m : ℝ → ℝ := fun α => n1 * chord2 α l.l0.x l.l2.x l.l3.x l.l1.x + n2 * chord2 α l.l0.z l.l2.z l.l3.z l.l1.z with hm
  have cr : Continuous r := by rw [hr]; unfold curvePos1; fun_prop
  have cz : Continuous z := by rw [hz]; unfold curvePos1; fun_prop
  have cg1 : Continuous g1 := by rw [hg1]; unfold chord; fun_prop
  have cg2 : Continuous g2 := by rw [hg2]; unfold chord; fun_prop
  have cd : Continuous d := by rw [hd]; fun_prop
  have cD : Continuous D := by rw [hD]; fun_prop
  have cm : Continuous m := by rw [hm]; unfold chord2; fun_prop
  have r0 : 0 < r 0 := regular_r hreg 0 (by norm_num)
  have hDpos : ∀ α ∈ Set.Icc (-1 : ℝ) 1, 0 < D α := by
    intro α hα
    have := regular_r hreg α hα
    have h2 : 0 < r α + r 0 := by simp only [hr] at r0 ⊢; linarith
    simp only [hD]; positivity
  have hdpos : ∀ α ∈ Set.Icc (-1 : ℝ) 1, 0 < d α := chord_pos hreg
  have nm : ∀ α, n1 * g1 α + n2 * g2 α = α * m α := by
    intro α
    have : n1 * curveTan1 0 l.l0.x l.l2.x l.l3.x l.l1.x + n2 * curveTan1 0 l.l0.z l.l2.z l.l3.z l.l1.z = 0 := by
      rw [hn1, hn2]
      unfold lineNormal curveNormal normal2d
      simp only [sub_zero]
      ring
    simp only [hg1, hg2, hm, chord_split]
    linear_combination this
  have cs : ContinuousOn (fun α => d α / D α) (Set.Icc (-1) 1) := ContinuousOn.div cd.continuousOn cD.continuousOn fun α hα => (hDpos α hα).ne'
  have ps : ∀ α ∈ Set.Icc (-1 : ℝ) 1, 0 < d α / D α := fun α hα => div_pos (hdpos α hα) (hDpos α hα)
  have keyK := LogCont.cheb [(Real.log 4, 1 / 2), (9.65736020516771e-2, 1.24999998585309e-1), (3.08909633861795e-2, 7.03114105853296e-2),
   (1.52618320622534e-2, 4.87379510945218e-2), (1.25565693543211e-2, 3.57218443007327e-2), (1.68695685967517e-2, 2.09857677336790e-2),
   (1.09423810688623e-2, 5.81807961871996e-3), (1.40704915496101e-3, 3.42805719229748e-4)] cs ps
  have keyE := LogCont.cheb [(1, 0), (4.43147193467733e-1, 2.49999998448655e-1), (5.68115681053803e-2, 9.37488062098189e-2),
   (2.21862206993846e-2, 5.84950297066166e-2), (1.56847700239786e-2, 4.09074821593164e-2), (1.92284389022977e-2, 2.35091602564984e-2),
   (1.21819481486695e-2, 6.45682247315060e-3), (1.55618744745296e-3, 3.78886487349367e-4)] cs ps
  have cj : Continuous (fun α => lineJac l α) := by unfold lineJac curveJac; fun_prop
  have sq : ∀ α ∈ Set.Icc (-1 : ℝ) 1, Real.sqrt (D α) ≠ 0 := fun α hα => (Real.sqrt_pos.2 (hDpos α hα)).ne'
  have mainK := LogCont.mul (f := fun α => lineJac l α * (fluxDensityToChargeFactor K * (1 / Real.pi / Real.sqrt (D α) * (n1 * r α / (2 * r 0))))) ?_ keyK
  have mainE := LogCont.mul (f := fun α => lineJac l α * (fluxDensityToChargeFactor K * (1 / Real.pi / Real.sqrt (D α) * (r α / (2 * r 0 * d α) * (-2 * r 0 * m α - n1 * d α))))) ?_ keyE
  · refine (mainK.add mainE).congr fun α hα h0 => ?_
    have e1 : r α - r 0 = α * g1 α := chord_spec α _ _ _ _
    have e2 : z α - z 0 = α * g2 α := chord_spec α _ _ _ _
    have hmin : ¬(r 0 < minDistanceAxis) := by
      have := hreg.centre
      have e0 := elemPoint_linePos l 0
      unfold linePos curvePos at e0
      simp only [Prod.mk.injEq] at e0
      rw [← e0.1] at this
      unfold minDistanceAxis
      simp only [hr]
      linarith
    change lineJac l α * (fluxDensityToChargeFactor K * (n1 * -dr1PotentialRadialRing (r 0) (z 0) (r α) (z α) + n2 * -dz1PotentialRadialRing (r 0) (z 0) (r α) (z α))) = _
    have hDD : 4 * r α * r α - 4 * (r α - r 0) * r α + (z α - z 0) * (z α - z 0) + (r α - r 0) * (r α - r 0) = D α := by simp only [hD]; ring
    have hDD' : 4 * r 0 * r 0 + 4 * (r α - r 0) * r 0 + (z α - z 0) * (z α - z 0) + (r α - r 0) * (r α - r 0) = D α := by simp only [hD]; ring
    have hnum : (z α - z 0) * (z α - z 0) + (r α - r 0) * (r α - r 0) = α ^ 2 * d α := by rw [e1, e2]; simp only [hd]; ring
    unfold dr1PotentialRadialRing dr1RingWith dz1PotentialRadialRing dz1RingWith
    rw [if_neg hmin]
    simp only []
    rw [hDD, hDD', hnum]
    have hden : (-2 * (r α - r 0) * (r α - r 0) * r α + (z α - z 0) * (z α - z 0) * (2 * (r α - r 0) - 2 * r α) + 2 * (r α - r 0) * (r α - r 0) * (r α - r 0)) =
        -2 * r 0 * (α ^ 2 * d α) := by rw [← hnum]; ring
    rw [hden, mul_div_assoc (α ^ 2)]
    unfold ellipkm1 ellipem1
    generalize chebSum (α ^ 2 * (d α / D α)) (Real.log (1 / (α ^ 2 * (d α / D α)))) [(Real.log 4, 1 / 2), (9.65736020516771e-2, 1.24999998585309e-1), (3.08909633861795e-2, 7.03114105853296e-2),
   (1.52618320622534e-2, 4.87379510945218e-2), (1.25565693543211e-2, 3.57218443007327e-2), (1.68695685967517e-2, 2.09857677336790e-2),
   (1.09423810688623e-2, 5.81807961871996e-3), (1.40704915496101e-3, 3.42805719229748e-4)] = EK
    generalize chebSum (α ^ 2 * (d α / D α)) (Real.log (1 / (α ^ 2 * (d α / D α)))) [(1, 0), (4.43147193467733e-1, 2.49999998448655e-1), (5.68115681053803e-2, 9.37488062098189e-2),
   (2.21862206993846e-2, 5.84950297066166e-2), (1.56847700239786e-2, 4.09074821593164e-2), (1.92284389022977e-2, 2.35091602564984e-2),
   (1.21819481486695e-2, 6.45682247315060e-3), (1.55618744745296e-3, 3.78886487349367e-4)] = EE
    have hs := sq α hα
    have hd0 := (hdpos α hα).ne'
    have hr0 := r0.ne'
    have hrr : r α = r 0 + α * g1 α := by linarith
    have hnm := nm α
    have hdd : d α = g1 α ^ 2 + g2 α ^ 2 := rfl
    have k1 : (z α - z 0) * (z α - z 0) * r α + (r α - r 0) * (r α - r 0) * r α = α ^ 2 * d α * r α := by rw [← hnum]; ring
    have k2 : -2 * (r α - r 0) * r α * r α - (z α - z 0) * (z α - z 0) * r α + (r α - r 0) * (r α - r 0) * r α =
        r α * (-2 * α * g1 α * r α + α ^ 2 * (g1 α ^ 2 - g2 α ^ 2)) := by rw [e1, e2]; ring
    have k3 : -(-(z α - z 0) * (r 0 + (r α - r 0)) * EE) = α * g2 α * r α * EE := by rw [e2]; ring
    rw [k1, k2, k3]
    have hpi := Real.pi_ne_zero
    have k4 : n1 * -(1 / Real.pi * (α ^ 2 * d α * r α * EK + r α * (-2 * α * g1 α * r α + α ^ 2 * (g1 α ^ 2 - g2 α ^ 2)) * EE) / (-2 * r 0 * (α ^ 2 * d α) * Real.sqrt (D α))) +
        n2 * -(1 / Real.pi * (α * g2 α * r α * EE) / (α ^ 2 * d α * Real.sqrt (D α))) =
        1 / Real.pi / Real.sqrt (D α) * (n1 * r α / (2 * r 0)) * EK + 1 / Real.pi / Real.sqrt (D α) * (r α / (2 * r 0 * d α) *
          ((-2 * α * (n1 * g1 α * r α + r 0 * (n2 * g2 α)) + n1 * α ^ 2 * (g1 α ^ 2 - g2 α ^ 2)) / α ^ 2)) * EE := by
      field_simp
      ring
    rw [k4]
    have k5 : (-2 * α * (n1 * g1 α * r α + r 0 * (n2 * g2 α)) + n1 * α ^ 2 * (g1 α ^ 2 - g2 α ^ 2)) / α ^ 2 = -2 * r 0 * m α - n1 * d α := by
      rw [div_eq_iff (pow_ne_zero 2 h0), hrr, hdd]
      linear_combination (-2 * α * r 0) * hnm
    rw [k5]
    ring
  · apply ContinuousOn.mul cj.continuousOn
    apply ContinuousOn.mul continuousOn_const
    apply ContinuousOn.mul
    · exact ContinuousOn.div continuousOn_const cD.sqrt.continuousOn sq
    · apply ContinuousOn.mul
      · refine ContinuousOn.div cr.continuousOn (continuousOn_const.mul cd.continuousOn) fun α hα => ?_
        have := hdpos α hα
        positivity
      · fun_prop
  · apply ContinuousOn.mul cj.continuousOn
    apply ContinuousOn.mul continuousOn_const
    apply ContinuousOn.mul
    · exact ContinuousOn.div continuousOn_const cD.sqrt.continuousOn sq
    · fun_prop

end

/-- A cone is regular. -/
example : Regular ⟨⟨1, 0, 0⟩, ⟨4, 0, 3⟩, ⟨2, 0, 1⟩, ⟨3, 0, 2⟩⟩ := by
  have hx : ∀ α, (elemPoint ⟨⟨1, 0, 0⟩, ⟨4, 0, 3⟩, ⟨2, 0, 1⟩, ⟨3, 0, 2⟩⟩ α).x = 5 / 2 + 3 / 2 * α := by
    intro α; simp [elemPoint]; ring
  refine ⟨⟨⟨rfl, rfl, rfl, rfl⟩, by rw [hx]; norm_num⟩, ?_, by rw [hx]; norm_num, ?_, ?_⟩
  · intro α hα; rw [hx]; linarith [hα.1]
  · intro α _ h
    have := congrArg V3.x h
    rw [hx, hx] at this
    linarith
  · intro h
    have := congrArg V3.x h
    rw [elemTangent_x] at this
    simp [curveTan1] at this
    norm_num at this

end Traceon
