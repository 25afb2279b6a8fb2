import Verif.Props.Memory

/-!
# C105: arrays of the documented shapes pass the checks
-/
namespace Traceon.Mem

/-- Charges on `N` elements with `Q` integration points of dimension `d` each, as `EffectivePointCharges` holds them. -/
def Holds (charges jac pos : Nd) (N Q d : Nat) : Prop := charges.shape = [N] ∧ jac.shape = [N, Q] ∧ pos.shape = [N, Q, d]

/-- **C105**, the other half: arrays of the documented shapes, with any number of elements, pass the checks made in Python, so that the library never refuses its own
arrays. -/
theorem C105_accepts {point z charges jac pos : Nd} {N Nz : Nat} (hp : point.shape = [3]) (hz : z.shape = [Nz]) :
    (Holds charges jac pos N 16 2 → (potentialRadial point charges jac pos).isSome ∧ (fieldRadial point charges jac pos).isSome ∧ (axialDerivativesRadial z charges jac pos).isSome) ∧
    (Holds charges jac pos N 12 3 → (potential3d point charges jac pos).isSome ∧ (field3d point charges jac pos).isSome ∧ (axialCoefficients3d charges jac pos z).isSome ∧
      (currentPotentialAxial charges jac pos).isSome ∧ (currentField point charges jac pos).isSome ∧ (currentAxialDerivativesRadial z charges jac pos).isSome) ∧
    (∀ coeffs within raw, 1 ≤ Nz → coeffs.shape = [Nz - 1, 9, 6] → (radialDerivs point z coeffs within raw).isSome) ∧
    (∀ isField coeffs within raw, 1 ≤ Nz → coeffs.shape = [Nz - 1, 2, 4, 8, 4] → (derivs3d isField point z coeffs within raw).isSome) := by
  refine ⟨?_, ?_, ?_, ?_⟩
  · rintro ⟨h1, h2, h3⟩
    simp [potentialRadial, fieldRadial, axialDerivativesRadial, Nd.len, *]
  · rintro ⟨h1, h2, h3⟩
    simp [potential3d, field3d, axialCoefficients3d, currentPotentialAxial, currentField, currentAxialDerivativesRadial, Nd.len, *]
  · intro coeffs within raw h1 h2
    simp [radialDerivs, Nd.len, *]
  · intro isField coeffs within raw h1 h2
    simp [derivs3d, Nd.len, *]

/-- Elements: the buffers, matrices and normals. Every thread gets a range with `start ≤ stop` (3D) or, with at least two elements per thread, `start < stop`
(radial). -/
theorem C105_accepts_elements {vertices matrix types values jac pos : Nd} {N : Nat} :
    (vertices.shape = [N, 4, 3] → (fillJacobianBufferRadial vertices).isSome ∧
      (matrix.shape = [N, N] → Holds types jac pos N 16 2 → values.shape = [N] → ∀ (kind : Int → RowKind) (start stop : Int), 0 ≤ start → start < stop → stop < N →
        (fillMatrixRadial matrix vertices types values jac pos kind start stop).isSome)) ∧
    (vertices.shape = [N, 3, 3] → (fillJacobianBuffer3d vertices).isSome ∧ (triangleAreas vertices).isSome ∧
      (matrix.shape = [N, N] → Holds types jac pos N 12 3 → values.shape = [N] → ∀ (kind : Int → RowKind) (far : Int → Int → Bool) (start stop : Int), 0 ≤ start → start ≤ stop → stop < N →
        (fillMatrix3d matrix vertices types values jac pos kind far start stop).isSome)) ∧
    (vertices.shape = [4, 3] → (higherOrderNormalRadial vertices).isSome ∧ (chargeRadial vertices).isSome ∧ ∀ isField, (selfRadial isField vertices).isSome) ∧
    (∀ v1 v2 v3 v4 : Nd, v1.shape = [3] → v2.shape = [3] → v3.shape = [3] → v4.shape = [3] → (positionAndJacobianRadial v1 v2 v3 v4).isSome) := by
  refine ⟨fun h => ⟨?_, ?_⟩, fun h => ⟨?_, ?_, ?_⟩, fun h => ⟨?_, ?_, ?_⟩, ?_⟩
  · simp [fillJacobianBufferRadial, Nd.len, *]
  · rintro h1 ⟨h2, h3, h4⟩ h5 kind start stop h6 h7 h8
    have hg : 0 ≤ start ∧ start < (N : Int) ∧ 0 ≤ stop ∧ stop < (N : Int) ∧ start < stop := by omega
    simp [fillMatrixRadial, Nd.len, *]
  · simp [fillJacobianBuffer3d, Nd.len, *]
  · simp [triangleAreas, Nd.len, *]
  · rintro h1 ⟨h2, h3, h4⟩ h5 kind far start stop h6 h7 h8
    have hg : 0 ≤ start ∧ start < (N : Int) ∧ 0 ≤ stop ∧ stop < (N : Int) ∧ start ≤ stop := by omega
    simp [fillMatrix3d, Nd.len, *]
  · simp [higherOrderNormalRadial, *]
  · simp [chargeRadial, Nd.len, *]
  · simp [selfRadial, *]
  · intro v1 v2 v3 v4 h1 h2 h3 h4
    simp [positionAndJacobianRadial, *]

/-- Tracing: the four tracers and the intersection with a plane. -/
theorem C105_accepts_tracing {B fuel Ne Nm Nc Nz : Nat} {bounds : Nd} {fieldBounds : Option Nd} {elec mag cur : Eff} (hb : bounds.shape = [3, 2])
    (hf : ∀ b ∈ fieldBounds, b.shape = [3, 2]) {inside accept : Nat → Bool} {within : Nat → Nat → Bool} {raw : Nat → Nat → Int} :
    (Holds elec.charges elec.jac elec.pos Ne 16 2 → Holds mag.charges mag.jac mag.pos Nm 16 2 → Holds cur.charges cur.jac cur.pos Nc 12 3 →
      (traceParticleRadial B bounds fieldBounds elec mag cur inside accept within fuel).isSome) ∧
    (Holds elec.charges elec.jac elec.pos Ne 12 3 → Holds mag.charges mag.jac mag.pos Nm 12 3 → (traceParticle3d B bounds fieldBounds elec mag inside accept within fuel).isSome) ∧
    (∀ z ce cm : Nd, 1 ≤ Nz → z.shape = [Nz] → ce.shape = [Nz - 1, 9, 6] → cm.shape = [Nz - 1, 9, 6] → (traceParticleRadialDerivs B bounds z ce cm inside accept within raw fuel).isSome) ∧
    (∀ z ce cm : Nd, 1 ≤ Nz → z.shape = [Nz] → ce.shape = [Nz - 1, 2, 4, 8, 4] → cm.shape = [Nz - 1, 2, 4, 8, 4] →
      (traceParticle3dDerivs B bounds z ce cm inside accept within raw fuel).isSome) ∧
    (∀ (positions p0 normal : Nd) (crosses : Nat → Bool), positions.shape = [Nz, 6] → p0.shape = [3] → normal.shape = [3] → (planeIntersection positions p0 normal crosses).isSome) := by
  have hf' : ∀ b, fieldBounds = some b → b.shape = [3, 2] := hf
  have hg : (guard (∀ b, fieldBounds = some b → b.shape = [3, 2]) : Option Unit) = some () := by simp only [guard]; rw [if_pos hf']; rfl
  refine ⟨?_, ?_, ?_, ?_, ?_⟩
  · rintro ⟨a1, a2, a3⟩ ⟨b1, b2, b3⟩ ⟨c1, c2, c3⟩
    simp [traceParticleRadial, Eff.check, Nd.len, a1, a2, a3, b1, b2, b3, c1, c2, c3, hb, hg]
  · rintro ⟨a1, a2, a3⟩ ⟨b1, b2, b3⟩
    simp [traceParticle3d, Eff.check, Nd.len, a1, a2, a3, b1, b2, b3, hb, hg]
  · intro z ce cm h1 h2 h3 h4
    simp [traceParticleRadialDerivs, Nd.len, *]
  · intro z ce cm h1 h2 h3 h4
    simp [traceParticle3dDerivs, Nd.len, *]
  · intro positions p0 normal crosses h1 h2 h3
    simp [planeIntersection, Nd.len, *]

end Traceon.Mem
