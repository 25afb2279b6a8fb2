import Verif.Spec.Gradient
import Verif.Props.Charges
import Mathlib.Analysis.Calculus.Deriv.Comp
import Mathlib.Analysis.Calculus.Deriv.Inv
import Mathlib.Analysis.SpecialFunctions.Sqrt
import Mathlib.Analysis.Calculus.FDeriv.Mul

/-!
# Lemmas about gradients
-/
namespace Traceon
open V3 Spec

/-- The linear functional belonging to a vector. -/
noncomputable def gradMap (g : V3) : ℝ × ℝ × ℝ →L[ℝ] ℝ :=
  g.x • ContinuousLinearMap.fst ℝ ℝ (ℝ × ℝ) + g.y • (ContinuousLinearMap.fst ℝ ℝ ℝ).comp (ContinuousLinearMap.snd ℝ ℝ (ℝ × ℝ)) +
      g.z • (ContinuousLinearMap.snd ℝ ℝ ℝ).comp (ContinuousLinearMap.snd ℝ ℝ (ℝ × ℝ))

theorem gradMap_apply (g : V3) (v : ℝ × ℝ × ℝ) : gradMap g v = g.x * v.1 + g.y * v.2.1 + g.z * v.2.2 := by
  simp [gradMap]

theorem isGradient_iff (f : V3 → ℝ) (g p : V3) :
    IsGradient f g p ↔ HasFDerivAt (fun v : ℝ × ℝ × ℝ => f ⟨v.1, v.2.1, v.2.2⟩) (gradMap g) (p.x, p.y, p.z) := Iff.rfl

theorem Spec.IsGradient.congr {f f' : V3 → ℝ} {g p : V3} (h : IsGradient f g p) (hf : ∀ q, f q = f' q) : IsGradient f' g p := by
  rwa [show f' = f from funext fun q => (hf q).symm]

theorem Spec.IsGradient.const (c : ℝ) (p : V3) : IsGradient (fun _ => c) 0 p := by
  rw [isGradient_iff]
  have h0 : gradMap 0 = 0 := by ext <;> simp [gradMap]
  rw [h0]; exact hasFDerivAt_const c _

theorem Spec.IsGradient.add {f f' : V3 → ℝ} {g g' p : V3} (h : IsGradient f g p) (h' : IsGradient f' g' p) : IsGradient (fun q => f q + f' q) (g + g') p := by
  rw [isGradient_iff] at *
  have h0 : gradMap (g + g') = gradMap g + gradMap g' := by ext <;> simp [gradMap_apply] 
  rw [h0]; exact h.add h'

theorem Spec.IsGradient.smul {f : V3 → ℝ} {g p : V3} (h : IsGradient f g p) (k : ℝ) : IsGradient (fun q => k * f q) (k * g) p := by
  rw [isGradient_iff] at *
  have h0 : gradMap (k * g) = k • gradMap g := by ext <;> simp [gradMap_apply] 
  rw [h0]; exact h.const_mul k

theorem Spec.IsGradient.x (p : V3) : IsGradient (fun q => q.x) ⟨1, 0, 0⟩ p := by
  rw [isGradient_iff]
  have h0 : gradMap ⟨1, 0, 0⟩ = ContinuousLinearMap.fst ℝ ℝ (ℝ × ℝ) := by ext <;> simp [gradMap_apply]
  rw [h0]; exact (ContinuousLinearMap.fst ℝ ℝ (ℝ × ℝ)).hasFDerivAt

theorem Spec.IsGradient.y (p : V3) : IsGradient (fun q => q.y) ⟨0, 1, 0⟩ p := by
  rw [isGradient_iff]
  have h0 : gradMap ⟨0, 1, 0⟩ = (ContinuousLinearMap.fst ℝ ℝ ℝ).comp (ContinuousLinearMap.snd ℝ ℝ (ℝ × ℝ)) := by ext <;> simp [gradMap_apply]
  rw [h0]; exact ((ContinuousLinearMap.fst ℝ ℝ ℝ).comp (ContinuousLinearMap.snd ℝ ℝ (ℝ × ℝ))).hasFDerivAt

theorem Spec.IsGradient.z (p : V3) : IsGradient (fun q => q.z) ⟨0, 0, 1⟩ p := by
  rw [isGradient_iff]
  have h0 : gradMap ⟨0, 0, 1⟩ = (ContinuousLinearMap.snd ℝ ℝ ℝ).comp (ContinuousLinearMap.snd ℝ ℝ (ℝ × ℝ)) := by ext <;> simp [gradMap_apply]
  rw [h0]; exact ((ContinuousLinearMap.snd ℝ ℝ ℝ).comp (ContinuousLinearMap.snd ℝ ℝ (ℝ × ℝ))).hasFDerivAt

/-- The chain rule. -/
theorem Spec.IsGradient.comp {f : V3 → ℝ} {g p : V3} {φ : ℝ → ℝ} {d : ℝ} (hφ : HasDerivAt φ d (f p)) (h : IsGradient f g p) : IsGradient (fun q => φ (f q)) (d * g) p := by
  rw [isGradient_iff] at *
  have h0 : gradMap (d * g) = d • gradMap g := by ext <;> simp [gradMap_apply]
  rw [h0]
  exact HasDerivAt.comp_hasFDerivAt (p.x, p.y, p.z) (f := fun v : ℝ × ℝ × ℝ => f ⟨v.1, v.2.1, v.2.2⟩) hφ h

theorem Spec.IsGradient.mul {f f' : V3 → ℝ} {g g' p : V3} (h : IsGradient f g p) (h' : IsGradient f' g' p) :
    IsGradient (fun q => f q * f' q) (f p * g' + f' p * g) p := by
  rw [isGradient_iff] at *
  have h0 : gradMap (f p * g' + f' p * g) = f p • gradMap g' + f' p • gradMap g := by ext <;> simp [gradMap_apply]
  rw [h0]; exact h.mul h'

theorem Spec.IsGradient.eq {f : V3 → ℝ} {g g' p : V3} (h : IsGradient f g p) (hg : g = g') : IsGradient f g' p := hg ▸ h

/-- Sums over the charges. -/
theorem Spec.IsGradient.sum {α : Type} (l : List α) (f : α → V3 → ℝ) (g : α → V3) (p : V3) (h : ∀ a ∈ l, IsGradient (f a) (g a) p) :
    IsGradient (fun q => (l.map (fun a => f a q)).sum) ⟨(l.map (fun a => (g a).x)).sum, (l.map (fun a => (g a).y)).sum, (l.map (fun a => (g a).z)).sum⟩ p := by
  induction l with
  | nil => exact IsGradient.const 0 p
  | cons a l ih =>
    exact ((h a (by simp)).add (ih (fun b hb => h b (by simp [hb])))).congr (fun q => by simp)

/-- If all kernels have a gradient, the superposition has one. -/
theorem Spec.IsGradient.loop {P : Type} (e : EffCharges P) (f : V3 → P → ℝ) (g : P → V3) (p : V3)
    (h : ∀ row ∈ e.positions, ∀ q ∈ row, IsGradient (fun p => f p q) (g q) p) :
    IsGradient (fun p => e.loop (f p)) ⟨e.loop (fun q => (g q).x), e.loop (fun q => (g q).y), e.loop (fun q => (g q).z)⟩ p := by
  simp only [EffCharges.loop_eq]
  unfold Spec.superpose
  apply IsGradient.sum (e.charges.zip (e.jacobians.zip e.positions)) (fun x p => ((x.2.1.zip x.2.2).map (fun y => x.1 * y.1 * f p y.2)).sum)
    (fun x => ⟨((x.2.1.zip x.2.2).map (fun y => x.1 * y.1 * (g y.2).x)).sum, ((x.2.1.zip x.2.2).map (fun y => x.1 * y.1 * (g y.2).y)).sum,
      ((x.2.1.zip x.2.2).map (fun y => x.1 * y.1 * (g y.2).z)).sum⟩)
  rintro ⟨c, js, ps⟩ hx
  apply IsGradient.sum (js.zip ps) (fun y p => c * y.1 * f p y.2) (fun y => (c * y.1) * g y.2)
  rintro ⟨j, q⟩ hy
  have h1 : ps ∈ e.positions := (List.of_mem_zip (List.of_mem_zip hx).2).2
  have h2 : q ∈ ps := (List.of_mem_zip hy).2
  exact (h ps h1 q h2).smul (c * j)

end Traceon
