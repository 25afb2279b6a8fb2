import Verif.Model.Vec
import Mathlib.Analysis.Calculus.FDeriv.Prod

/-!
# Gradients (specification)
-/
namespace Traceon.Spec

/-- `g` is the gradient of the function `f` at `p`: `f` is (Fréchet) differentiable with the partial derivatives `g.x`, `g.y`, `g.z`. -/
def IsGradient (f : V3 → ℝ) (g p : V3) : Prop :=
  HasFDerivAt (fun v : ℝ × ℝ × ℝ => f ⟨v.1, v.2.1, v.2.2⟩)
    (g.x • ContinuousLinearMap.fst ℝ ℝ (ℝ × ℝ) + g.y • (ContinuousLinearMap.fst ℝ ℝ ℝ).comp (ContinuousLinearMap.snd ℝ ℝ (ℝ × ℝ)) +
      g.z • (ContinuousLinearMap.snd ℝ ℝ ℝ).comp (ContinuousLinearMap.snd ℝ ℝ (ℝ × ℝ))) (p.x, p.y, p.z)

end Traceon.Spec
