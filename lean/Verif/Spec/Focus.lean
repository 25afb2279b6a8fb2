import Verif.Model.Focus

namespace Traceon.Spec

/-- The sum of the squares of the residuals of a linear system. -/
def sumSqResidual (rows : List LinRow) (u : ℝ × ℝ × ℝ) : ℝ :=
  (rows.map fun r => (r.c0 * u.1 + r.c1 * u.2.1 + r.c2 * u.2.2 - r.rhs) ^ 2).sum

/-- The documentation of `np.linalg.lstsq`: the result minimises the sum of squares of the residuals, and if there are
several minimising vectors, it is the one of least norm. -/
structure IsLstsq (lstsq : List LinRow → ℝ × ℝ × ℝ) : Prop where
  min : ∀ rows u, sumSqResidual rows (lstsq rows) ≤ sumSqResidual rows u
  least : ∀ rows u, (∀ v, sumSqResidual rows u ≤ sumSqResidual rows v) →
    (lstsq rows).1 ^ 2 + (lstsq rows).2.1 ^ 2 + (lstsq rows).2.2 ^ 2 ≤ u.1 ^ 2 + u.2.1 ^ 2 + u.2.2 ^ 2

/-- The straight line through the position `p.pos` in the direction `p.vel` passes through `q`. -/
def OnRay (p : Phase) (q : V3) : Prop := ∃ t : ℝ, q = p.pos + t * p.vel

/-- The square of the distance, measured in the plane of constant `z` through `q`, between `q` and the straight
extension of the trajectory. -/
noncomputable def rayDistSq (p : Phase) (q : V3) : ℝ :=
  let t := (q.z - p.pos.z) / p.vel.z
  (q.x - (p.pos.x + t * p.vel.x)) ^ 2 + (q.y - (p.pos.y + t * p.vel.y)) ^ 2

/-- Two directions are parallel. -/
def Parallel (v w : V3) : Prop := V3.cross v w = 0

end Traceon.Spec
