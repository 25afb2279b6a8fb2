import Verif.Spec.Gradient
import Verif.Spec.SolveField

/-! # Static fields in vacuum (specification, C93) -/
namespace Traceon.Spec

/-- The vector field `F` satisfies the equations of a static field in vacuum at `p`: all its components are (Fréchet)
differentiable there, its divergence is zero and its curl is zero. -/
def VacuumField (F : V3 → V3) (p : V3) : Prop :=
  ∃ gx gy gz : V3, IsGradient (fun q => (F q).x) gx p ∧ IsGradient (fun q => (F q).y) gy p ∧ IsGradient (fun q => (F q).z) gz p ∧
    gx.x + gy.y + gz.z = 0 ∧ gz.y - gy.z = 0 ∧ gx.z - gz.x = 0 ∧ gy.x - gx.y = 0

/-- `φ` satisfies Laplace's equation at `p`: near `p` it has the gradient `G`, the components of `G` are differentiable at `p`,
and the second derivatives `∂²φ/∂x²`, `∂²φ/∂y²` and `∂²φ/∂z²` add up to zero. -/
def Harmonic (φ : V3 → ℝ) (p : V3) : Prop :=
  ∃ (G : V3 → V3) (ε : ℝ) (gx gy gz : V3), 0 < ε ∧ (∀ q, V3.norm (q - p) < ε → IsGradient φ (G q) q) ∧
    IsGradient (fun q => (G q).x) gx p ∧ IsGradient (fun q => (G q).y) gy p ∧ IsGradient (fun q => (G q).z) gz p ∧
    gx.x + gy.y + gz.z = 0

/-- The point `p` lies on the (closed) triangle with the corners `a`, `b`, `c`. -/
def OnTri (a b c p : V3) : Prop := ∃ u v : ℝ, 0 ≤ u ∧ 0 ≤ v ∧ u + v ≤ 1 ∧ p = a + u * (b - a) + v * (c - a)

/-- `p` lies on no triangle of the mesh that carries an excitation of the kind `s`. -/
def OffSources (x : Excitation ℝ V3) (s : Excitation.Statics) (p : V3) : Prop :=
  ∀ (i : Nat) (t : Tri3), (x.mesh.triangles[i]?).bind (triVerts x.mesh.points) = some t → Excited x s i → ¬ OnTri t.v0 t.v1 t.v2 p

end Traceon.Spec
